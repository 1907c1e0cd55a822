import Verif.Config.Policy
/-
Property theorems: C59 (the policy decides what its configuration says), C60 (name relations and hierarchies).
-/
namespace Ndn.Config
open Ndn.Name Ndn.Packet
open Ndn.Regex (Result)
open Ndn.Validator (Decision)

/-! ### C60: relations, identities, hierarchies -/

/-- The three checks accept exactly when the relation holds. -/
theorem C60_relation (r : Relation) (a b : List Comp) : checkNameRelation r a b = true ↔ Spec.Rel r a b := checkNameRelation_iff r a b

/-- The words of the configuration language for them, in any case; all others are errors. -/
theorem C60_words (s : Bytes) (r : Relation) : relationOf s = some r ↔ Spec.SaysRelation s r := relationOf_iff s r

/-- The signer's identity is what precedes the last `KEY` among the last four components of the key locator name; other
names, except the two reserved ones, are an error. -/
theorem C60_identity (kl : List Comp) :
    (∀ id, extractIdentity kl = some id ↔ Spec.Identity kl id) ∧ (extractIdentity kl = none ↔ ∀ id, ¬ Spec.Identity kl id) :=
  ⟨extractIdentity_iff kl, extractIdentity_none kl⟩

/-- The identity is unique, and a name made of an identity, `KEY` and up to three components without `KEY` has it. -/
theorem C60_identity_of (id rest : List Comp) (h : rest.length ≤ 3) (hk : keyComp ∉ rest) : extractIdentity (id ++ keyComp :: rest) = some id := by
  rw [extractIdentity_iff]
  unfold Spec.Identity
  rw [if_neg]
  · exact ⟨rest, rfl, h, hk⟩
  · have key : ∀ l : List Comp, keyComp ∉ l → id ++ keyComp :: rest ≠ l := by
      rintro l hl rfl
      exact hl (by simp)
    exact fun h => h.elim (key _ (by decide)) (key _ (by decide))

/-- The simple hierarchy policy asks for the signer's certificate exactly if the packet has a signature with a key
locator name whose identity is a prefix of the packet's name; otherwise it refuses. -/
theorem C60_hierarchy (x : Pkt) :
    (∀ kl, simpleHierarchy x = .request kl ↔ ∃ info id, Spec.Signed x info ∧ Spec.Locates info kl ∧ Spec.Identity kl id ∧ ∃ t, Spec.Pkt.name x = id ++ t) ∧
    ((∀ kl, simpleHierarchy x ≠ .request kl) → simpleHierarchy x = .fail) := by
  have hh : ∀ name kl kl', hierarchy name kl = .request kl' ↔ kl' = kl ∧ ∃ id, Spec.Identity kl id ∧ ∃ t, name = id ++ t := by
    intro name kl kl'
    unfold hierarchy
    split
    · rename_i e
      simp only [reduceCtorEq, false_iff]
      rintro ⟨_, id, h, _⟩
      exact (extractIdentity_none kl).1 e id h
    · rename_i id e
      have hid := (extractIdentity_iff _ _).1 e
      split
      · rename_i hp
        rw [prefix_iff] at hp
        simp only [Decision.request.injEq]
        exact ⟨fun h => ⟨h.symm, id, hid, hp⟩, fun h => h.1.symm⟩
      · rename_i hp
        rw [prefix_iff] at hp
        simp only [reduceCtorEq, false_iff]
        rintro ⟨_, id', h1, h2⟩
        exact hp (identity_unique h1 hid ▸ h2)
  have hf : ∀ name kl, (∀ kl', hierarchy name kl ≠ .request kl') → hierarchy name kl = .fail := by
    intro name kl h
    unfold hierarchy at h ⊢
    split
    · rfl
    · rename_i id e
      rw [e] at h
      simp only at h
      split
      · rename_i hp
        rw [if_pos hp] at h
        exact absurd rfl (h kl)
      · rfl
  have main : ∀ info name, Spec.Signed x info → Spec.Pkt.name x = name → simpleHierarchy x = (match keyLocatorName info with
      | none => .fail
      | some kl => hierarchy name kl) →
      (∀ kl, simpleHierarchy x = .request kl ↔ ∃ info id, Spec.Signed x info ∧ Spec.Locates info kl ∧ Spec.Identity kl id ∧ ∃ t, Spec.Pkt.name x = id ++ t) ∧
      ((∀ kl, simpleHierarchy x ≠ .request kl) → simpleHierarchy x = .fail) := by
    intro info name hs hn e
    rw [e, hn]
    cases hk : keyLocatorName info with
    | none =>
      refine ⟨fun kl => ?_, fun _ => rfl⟩
      simp only [reduceCtorEq, false_iff]
      rintro ⟨i, id, h1, h2, _⟩
      rw [signed_unique h1 hs, ← keyLocatorName_iff, hk] at h2
      simp at h2
    | some kl0 =>
      have hl := (keyLocatorName_iff _ _).1 hk
      refine ⟨fun kl => ?_, hf name kl0⟩
      simp only
      rw [hh]
      constructor
      · rintro ⟨rfl, id, h1, h2⟩; exact ⟨info, id, hs, hl, h1, h2⟩
      · rintro ⟨i, id, h1, h2, h3, h4⟩
        rw [signed_unique h1 hs] at h2
        cases locates_unique h2 hl
        exact ⟨rfl, id, h3, h4⟩
  cases x with
  | data name info => exact main info name (.data name info) rfl rfl
  | interest name sig =>
    cases hi : signatureInfo name sig with
    | none =>
      refine ⟨fun kl => ?_, fun _ => by simp only [simpleHierarchy, hi]⟩
      simp only [simpleHierarchy, hi, reduceCtorEq, false_iff]
      rintro ⟨i, id, h1, _⟩
      rw [(signatureInfo_iff _ _ _).2 h1] at hi
      simp at hi
    | some info => exact main info name ((signatureInfo_iff _ _ _).1 hi) rfl (by simp only [simpleHierarchy, hi]; rfl)

/-- The hierarchical checker of the configuration language accepts exactly if the signature type is right and the key
locator name is an identity followed by `KEY` and one to three components, the identity being a prefix of the packet's
name without signature components. It ends and never throws, whatever it checked before. -/
theorem C60_hierarchical {env : REnv} (h : StdRegex env) (x : Pkt) (hx : ∀ n, x ≠ .interest n .malformed) (info : SigInfo) (kl : List Comp) (t : Nat) (s s' : TS) :
    ∃ N, ∀ fuel, N ≤ fuel → ∃ b,
      (Checker.check env fuel info.type (subjectOf x) kl
        ⟨t, .hyper (Regex.topOf env hierPTop) hierExpand (Regex.topOf env hierKTop) hierExpand .isPrefixOf s s'⟩).1 = .ok b ∧
      (b = true ↔ info.type = some t ∧ ∃ n id, Spec.Subject x n ∧ Spec.HierIdentity kl id ∧ ∃ u, n = id ++ u) := by
  refine ⟨(match subjectOf x with | none => 0 | some n => n.length + 1) + kl.length + 5, fun fuel hf => ?_⟩
  have hr : RepC env ⟨t, .hyper (Regex.topOf env hierPTop) hierExpand (Regex.topOf env hierKTop) hierExpand .isPrefixOf s s'⟩ ⟨t, .hierarchical⟩ :=
    ⟨rfl, .hierarchical s s'⟩
  have he : Enough x kl fuel := by
    refine ⟨fun n hn => ?_, by omega, by omega⟩
    rw [hn] at hf; simp only at hf; omega
  have h1 := checker_nohang h fuel x kl he info.type _ _ hr (by simp [Spec.Kind.patterns])
  have h2 := (checker_rep h fuel x hx info kl _ _ hr).2 (by simp [Spec.Kind.patterns])
  have fin : ∀ a, Spec.Checker.Answers env x info kl ⟨t, .hierarchical⟩ a → ∃ b, a = some b ∧
      (b = true ↔ info.type = some t ∧ ∃ n id, Spec.Subject x n ∧ Spec.HierIdentity kl id ∧ ∃ u, n = id ++ u) := by
    intro a ha
    unfold Spec.Checker.Answers at ha
    split at ha
    · rename_i ht
      have ht : info.type = some t := ht
      rcases ha with ⟨n, n1, n2⟩ | ⟨n1, n2⟩
      · cases n2 with
        | hierarchical b hb =>
          refine ⟨b, rfl, ?_⟩
          rw [hb]
          constructor
          · rintro ⟨id, i1, i2⟩; exact ⟨ht, n, id, n1, i1, i2⟩
          · rintro ⟨_, m, id, m1, m2, m3⟩
            cases Spec.subject_unique m1 n1
            exact ⟨id, m2, m3⟩
      · refine ⟨false, n2, ?_⟩
        simp only [Bool.false_eq_true, false_iff]
        rintro ⟨_, m, _, m1, _⟩
        exact n1 m m1
    · rename_i ht
      have ht : ¬ info.type = some t := ht
      exact ⟨false, ha, by simp [ht]⟩
  generalize ho : (Checker.check env fuel info.type (subjectOf x) kl
        ⟨t, .hyper (Regex.topOf env hierPTop) hierExpand (Regex.topOf env hierKTop) hierExpand .isPrefixOf s s'⟩).1 = o at h1 h2
  cases o with
  | hang => exact absurd rfl h1
  | throws =>
    obtain ⟨b, e, _⟩ := fin none (h2 none rfl)
    simp at e
  | ok b =>
    obtain ⟨b', e, h3⟩ := fin (some b) (h2 (some b) rfl)
    cases e
    exact ⟨b, rfl, h3⟩

/-- The identities the two find are the same, if the key locator name does not end with `KEY`. -/
theorem C60_identities (kl id : List Comp) (h : ∀ l, kl ≠ l ++ [keyComp]) : Spec.HierIdentity kl id ↔
    Spec.Identity kl id ∧ kl ≠ digestIdentity ∧ kl ≠ hmacIdentity := by
  have hd : keyComp ∉ digestIdentity ∧ keyComp ∉ hmacIdentity := by decide
  constructor
  · rintro ⟨mid, x, rfl, h1, h2⟩
    have n1 : id ++ keyComp :: (mid ++ [x]) ≠ digestIdentity := fun e => hd.1 (e ▸ by simp)
    have n2 : id ++ keyComp :: (mid ++ [x]) ≠ hmacIdentity := fun e => hd.2 (e ▸ by simp)
    refine ⟨?_, n1, n2⟩
    unfold Spec.Identity
    rw [if_neg (fun e => e.elim n1 n2)]
    refine ⟨mid ++ [x], rfl, by simp; omega, ?_⟩
    intro hm
    rcases List.mem_append.1 hm with hm | hm
    · exact h2 hm
    · simp only [List.mem_singleton] at hm
      exact h (id ++ keyComp :: mid) (by rw [hm]; simp)
  · rintro ⟨h1, n1, n2⟩
    unfold Spec.Identity at h1
    rw [if_neg (fun e => e.elim n1 n2)] at h1
    obtain ⟨rest, rfl, h2, h3⟩ := h1
    rcases List.eq_nil_or_concat rest with rfl | ⟨mid, x, rfl⟩
    · exact absurd rfl (h id)
    · rw [List.concat_eq_append] at *
      exact ⟨mid, x, rfl, by simp at h2; omega, fun hm => h3 (by simp [hm])⟩

/-! ### C59: loading -/

/-- A configuration is accepted exactly if it is well formed, whatever was loaded and checked before. -/
theorem C59_load {env : REnv} (h : StdRegex env) (isCert : Bytes → Bool) (before : List Op) (secs : List (Bytes × Sec)) :
    ((run env isCert Policy.init before).load env isCert secs).1 = .ok () ↔ ∃ xs, Spec.SaysConfig env isCert secs xs := by
  have hf := run_fresh env isCert before Policy.init (fun _ => rfl)
  constructor
  · intro e
    obtain ⟨xs, h1, _⟩ := (load_ok h isCert _ ((run env isCert Policy.init before).load env isCert secs).2 hf secs).1 (Prod.ext e rfl)
    exact ⟨xs, h1⟩
  · rintro ⟨xs, h1⟩
    rw [(load_ok h isCert _ _ hf secs).2 ⟨xs, h1, rfl⟩]

/-- The groups of trust anchors are then those of the configuration; those of an earlier one are gone. -/
theorem C59_anchors {env : REnv} (h : StdRegex env) (isCert : Bytes → Bool) (before : List Op) (secs : List (Bytes × Sec)) (xs : List Spec.Sect)
    (hc : Spec.SaysConfig env isCert secs xs) : ((run env isCert Policy.init before).load env isCert secs).2.anchors = Spec.groups xs := by
  have hf := run_fresh env isCert before Policy.init (fun _ => rfl)
  rw [(load_ok h isCert _ _ hf secs).2 ⟨xs, hc, rfl⟩]
  rfl

/-! ### C59: deciding -/

/-- After a configuration was loaded, whatever was loaded before and checked since, a check that ends has an outcome
the configuration allows: the first rule that captures the packet decides. Expressions with groups that match the
empty name but are demanded repeatedly are excluded (C41). Missing: checks that do not end (below); that a rule
captures a packet only if all of its filters are satisfied (`C59_claim`). -/
theorem C59_decision_partial {env : REnv} (h : StdRegex env) (isCert : Bytes → Bool) (before : List Op) (secs : List (Bytes × Sec)) (xs : List Spec.Sect)
    (hc : Spec.SaysConfig env isCert secs xs) (hs : ∀ b, ∀ r ∈ Spec.rules b xs, ∀ t ∈ r.patterns, t.pat.Solid env)
    (checks : List (Nat × Pkt)) (fuel : Nat) (x : Pkt) :
    ((run env isCert Policy.init (Spec.history before secs checks)).check env fuel x).1 ≠ .hang →
      Spec.Outcome env xs x ((run env isCert Policy.init (Spec.history before secs checks)).check env fuel x).1 :=
  (check_rep h fuel _ xs (history_rep h isCert before secs xs hc checks) x).2 hs

/-- Checks end, if no group that matches the empty name has a quantifier without upper bound. -/
theorem C59_terminates_partial {env : REnv} (h : StdRegex env) (isCert : Bytes → Bool) (secs : List (Bytes × Sec)) (xs : List Spec.Sect)
    (hc : Spec.SaysConfig env isCert secs xs) (hb : ∀ b, ∀ r ∈ Spec.rules b xs, ∀ t ∈ r.patterns, t.pat.Bounded env) (x : Pkt) :
    ∃ N, ∀ before checks fuel, N ≤ fuel → ((run env isCert Policy.init (Spec.history before secs checks)).check env fuel x).1 ≠ .hang := by
  obtain ⟨N, hN⟩ := check_nohang h xs hb x
  exact ⟨N, fun before checks fuel hf => hN _ (history_rep h isCert before secs xs hc checks) fuel hf⟩

/-- With the anchor `any` every packet is accepted, except Interests whose signature is malformed. -/
theorem C59_any {env : REnv} (h : StdRegex env) (isCert : Bytes → Bool) (before : List Op) (secs : List (Bytes × Sec)) (xs : List Spec.Sect)
    (hc : Spec.SaysConfig env isCert secs xs) (ha : Spec.Sect.anchor .any ∈ xs) (checks : List (Nat × Pkt)) (fuel : Nat) (x : Pkt)
    (hx : ∀ n, x ≠ .interest n .malformed) :
    ((run env isCert Policy.init (Spec.history before secs checks)).check env fuel x).1 = .ok .bypass := by
  have hr := history_rep h isCert before secs xs hc checks
  have hb := hr.bypass.2 ha
  cases x with
  | data name info => simp only [Policy.check, hb, if_true]
  | interest name sig =>
    cases sig with
    | malformed => exact absurd rfl (hx name)
    | v03 i => simp only [Policy.check, hb, if_true]
    | v02 => simp only [Policy.check, hb, if_true]

/-- A packet that no rule captures is refused. -/
theorem C59_unmatched {env : REnv} (h : StdRegex env) (isCert : Bytes → Bool) (before : List Op) (secs : List (Bytes × Sec)) (xs : List Spec.Sect)
    (hc : Spec.SaysConfig env isCert secs xs) (hs : ∀ b, ∀ r ∈ Spec.rules b xs, ∀ t ∈ r.patterns, t.pat.Solid env)
    (ha : Spec.Sect.anchor .any ∉ xs) (checks : List (Nat × Pkt)) (fuel : Nat) (x : Pkt)
    (hx : ∀ r ∈ Spec.rules (Spec.Pkt.isInterest x) xs, ¬ r.Captures env x)
    (hh : ((run env isCert Policy.init (Spec.history before secs checks)).check env fuel x).1 ≠ .hang) :
    ((run env isCert Policy.init (Spec.history before secs checks)).check env fuel x).1 = .ok .fail := by
  have ho := C59_decision_partial h isCert before secs xs hc hs checks fuel x hh
  generalize ((run env isCert Policy.init (Spec.history before secs checks)).check env fuel x).1 = o at ho
  cases ho with
  | malformed => rfl
  | any _ _ a => exact absurd a ha
  | unlocated => rfl
  | rules _ info kl v _ _ _ _ hd hg =>
    have hv : v = .refuse := by
      cases hd with
      | none => rfl
      | rule pre r post _ e _ hcap _ => exact absurd hcap (hx r (by rw [e]; simp))
    subst hv
    cases hg
    rfl

/-- Without hyper-relations the answer depends on the configuration and the packet only. -/
theorem C59_history_partial {env : REnv} (h : StdRegex env) (isCert : Bytes → Bool) (secs : List (Bytes × Sec)) (xs : List Spec.Sect)
    (hc : Spec.SaysConfig env isCert secs xs) (hs : ∀ b, ∀ r ∈ Spec.rules b xs, ∀ t ∈ r.patterns, t.pat.Solid env)
    (hk : ∀ b, ∀ r ∈ Spec.rules b xs, ∀ c ∈ r.checkers, ∀ p pe k ke q, c.kind ≠ .hyper p pe k ke q)
    (before before' : List Op) (checks checks' : List (Nat × Pkt)) (fuel fuel' : Nat) (x : Pkt) :
    ((run env isCert Policy.init (Spec.history before secs checks)).check env fuel x).1 ≠ .hang →
    ((run env isCert Policy.init (Spec.history before' secs checks')).check env fuel' x).1 ≠ .hang →
    ((run env isCert Policy.init (Spec.history before secs checks)).check env fuel x).1 =
      ((run env isCert Policy.init (Spec.history before' secs checks')).check env fuel' x).1 := by
  intro h1 h2
  refine outcome_det (fun b r hr c hc' => ?_) (C59_decision_partial h isCert before secs xs hc hs checks fuel x h1)
    (C59_decision_partial h isCert before' secs xs hc hs checks' fuel' x h2)
  have := hk b r hr c hc'
  cases hkind : c.kind with
  | hyper p pe k ke q => exact absurd hkind (this p pe k ke q)
  | _ => rfl

/-! ### Examples -/

/-- The environment of the regular expressions: see `Regex.nameEnv`. -/
theorem exStd : StdRegex Regex.nameEnv where
  dot := ⟨fun c => Or.inr rfl, by decide⟩
  marksEmpty := by decide
  marksKey := by decide
  evalKey u := by
    simp only [Regex.nameEnv]
    rw [if_neg (by decide), if_neg (by decide)]
    constructor
    · intro h; split at h
      · rename_i e; exact e.symm
      · simp at h
    · rintro rfl; simp
  uri := rfl

def leaf (b : Bytes) : Sec := .mk b []

def comp (b : Bytes) : Comp := ⟨8, b⟩

/-- `filter { type name  name <uri>  relation is-prefix-of }` -/
def exFilter (uri : Bytes) : Bytes × Sec := (wFilter, .mk [] [(wType, leaf wName), (wName, leaf uri), (wRelation, leaf wIsPrefix)])

/-- `rule { id r  for data  <filters>  <checkers> }` -/
def exRule (body : List (Bytes × Sec)) : Bytes × Sec := (wRule, .mk [] ([(wId, leaf [114]), (wFor, leaf wData)] ++ body))

/-- `checker { type hierarchical }` -/
def exHier : Bytes × Sec := (wChecker, .mk [] [(wType, leaf wHierarchical)])

/-- `checker { type customized  sig-type sha256 }` -/
def exDigest : Bytes × Sec := (wChecker, .mk [] [(wType, leaf wCustomized), (wSigType, leaf wSha)])

def ecdsa (kl : List Comp) : SigInfo := ⟨some 3, some (.name kl), []⟩
def digest : SigInfo := ⟨some 0, none, []⟩

/-- A rule for `/a` with the hierarchical checker. -/
def exSecs : List (Bytes × Sec) := [exRule [exFilter [47, 97], exHier]]
def exSects : List Spec.Sect := [.rule false ⟨[.relation [comp [97]] .isPrefixOf], [⟨3, .hierarchical⟩]⟩]

theorem exSays : Spec.SaysConfig Regex.nameEnv (fun _ => true) exSecs exSects :=
  ⟨.cons (.rule _ _ _ _ (by unfold Spec.Is; decide) (.mk wId wFor (leaf [114]) (leaf wData) false [exFilter [47, 97]] [exHier] _ _
      (by unfold Spec.Is; decide) (by unfold Spec.Is; decide) (by unfold Spec.Is; decide)
      (.cons ⟨by unfold Spec.Is; decide, .relation _ _ _ _ _ _ _ _ (by unfold Spec.Is; decide) (by unfold Spec.Is; decide) (by unfold Spec.Is; decide) (by decide)
        (by unfold Spec.Is; decide) (.isPrefixOf _ (by unfold Spec.Is; decide))⟩ .nil)
      (.cons ⟨by unfold Spec.Is; decide, .hierarchical _ _ [] 3 (by unfold Spec.Is; decide) (by unfold Spec.Is; decide) .default⟩ .nil) (by simp))) .nil, .nil⟩

example : (∀ b, ∀ r ∈ Spec.rules b exSects, ∀ t ∈ r.patterns, t.pat.Solid Regex.nameEnv ∧ t.pat.Bounded Regex.nameEnv) ∧
    (∀ b, ∀ r ∈ Spec.rules b exSects, ∀ c ∈ r.checkers, ∀ p pe k ke q, c.kind ≠ .hyper p pe k ke q) ∧ Spec.Sect.anchor .any ∉ exSects := by
  refine ⟨?_, ?_, by simp [exSects]⟩
  · intro b r hr
    cases b <;> simp [exSects, Spec.rules] at hr
    subst hr
    simp [Spec.Rule.patterns, Spec.Filter.patterns, Spec.Kind.patterns]
  · intro b r hr
    cases b <;> simp [exSects, Spec.rules] at hr
    subst hr
    simp

def exPolicy : Policy := (Policy.init.load Regex.nameEnv (fun _ => true) exSecs).2

/-- `/a/x` signed by `/a` is allowed, signed by `/b` not; `/b/x` is captured by no rule. -/
example : (exPolicy.check Regex.nameEnv 10 (.data [comp [97], comp [120]] (ecdsa [comp [97], keyComp, comp [1]]))).1 =
      .ok (.request [comp [97], keyComp, comp [1]]) ∧
    (exPolicy.check Regex.nameEnv 10 (.data [comp [97], comp [120]] (ecdsa [comp [98], keyComp, comp [1]]))).1 = .ok .fail ∧
    (exPolicy.check Regex.nameEnv 10 (.data [comp [98], comp [120]] (ecdsa [comp [98], keyComp, comp [1]]))).1 = .ok .fail := by
  refine ⟨?_, ?_, ?_⟩ <;> decide +kernel

example : simpleHierarchy (.data [comp [97], comp [120]] (ecdsa [comp [97], keyComp, comp [1]])) = .request [comp [97], keyComp, comp [1]] ∧
    simpleHierarchy (.data [comp [97], comp [120]] (ecdsa [comp [98], keyComp, comp [1]])) = .fail ∧
    extractIdentity [comp [97], keyComp, comp [1], comp [2], comp [3]] = some [comp [97]] ∧
    extractIdentity [comp [97], keyComp, comp [1], comp [2], comp [3], comp [4]] = none := by decide

/-! ### Where the claims fail -/

/-- The claim of the documentation: a packet is allowed only if all filters of some rule match it. -/
def C59_claim : Prop := ∀ (env : REnv) (isCert : Bytes → Bool), StdRegex env → ∀ (secs : List (Bytes × Sec)) (xs : List Spec.Sect),
  Spec.SaysConfig env isCert secs xs → ∀ (fuel : Nat) (x : Pkt) (kl : List Comp),
  ((Policy.init.load env isCert secs).2.check env fuel x).1 = .ok (.request kl) → ∃ r ∈ Spec.rules (Spec.Pkt.isInterest x) xs, r.CapturesAll env x

def orSecs : List (Bytes × Sec) := [exRule [exFilter [47, 97], exFilter [47, 98], exDigest]]
def orSects : List Spec.Sect := [.rule false ⟨[.relation [comp [97]] .isPrefixOf, .relation [comp [98]] .isPrefixOf], [⟨0, .plain⟩]⟩]

theorem orSays : Spec.SaysConfig Regex.nameEnv (fun _ => true) orSecs orSects :=
  ⟨.cons (.rule _ _ _ _ (by unfold Spec.Is; decide) (.mk wId wFor (leaf [114]) (leaf wData) false [exFilter [47, 97], exFilter [47, 98]] [exDigest] _ _
      (by unfold Spec.Is; decide) (by unfold Spec.Is; decide) (by unfold Spec.Is; decide)
      (.cons ⟨by unfold Spec.Is; decide, .relation _ _ _ _ _ _ _ _ (by unfold Spec.Is; decide) (by unfold Spec.Is; decide) (by unfold Spec.Is; decide) (by decide)
        (by unfold Spec.Is; decide) (.isPrefixOf _ (by unfold Spec.Is; decide))⟩
      (.cons ⟨by unfold Spec.Is; decide, .relation _ _ _ _ _ _ _ _ (by unfold Spec.Is; decide) (by unfold Spec.Is; decide) (by unfold Spec.Is; decide) (by decide)
        (by unfold Spec.Is; decide) (.isPrefixOf _ (by unfold Spec.Is; decide))⟩ .nil))
      (.cons ⟨by unfold Spec.Is; decide, .digest _ _ [(wSigType, leaf wSha)] [] (by unfold Spec.Is; decide) (by unfold Spec.Is; decide)
        (.sha _ _ (by unfold Spec.Is; decide) (by unfold Spec.Is; decide)) (by simp)⟩ .nil) (by simp))) .nil, .nil⟩

/-- A rule with filters for `/a` and `/b` captures `/a/x`. -/
theorem C59_counterexample : ¬ C59_claim := by
  intro hc
  obtain ⟨r, hr, hall⟩ := hc _ _ exStd orSecs orSects orSays 10 (.data [comp [97], comp [120]] digest) digestIdentity (by decide +kernel)
  simp [orSects, Spec.rules, Spec.Pkt.isInterest] at hr
  subst hr
  obtain ⟨n, h1, h2⟩ := hall (.relation [comp [98]] .isPrefixOf) (by simp)
  cases h1
  obtain ⟨t, ht⟩ := h2
  simp [comp] at ht

/-- The claim: the answer does not depend on what was checked before. -/
def C59_history_claim : Prop := ∀ (env : REnv) (isCert : Bytes → Bool), StdRegex env → ∀ (secs : List (Bytes × Sec)) (xs : List Spec.Sect),
  Spec.SaysConfig env isCert secs xs → (∀ b, ∀ r ∈ Spec.rules b xs, ∀ t ∈ r.patterns, t.pat.Solid env ∧ t.pat.Bounded env) →
  ∀ (checks : List (Nat × Pkt)) (fuel : Nat) (x : Pkt),
    ((run env isCert Policy.init (Spec.history [] secs checks)).check env fuel x).1 ≠ .hang →
    ((Policy.init.load env isCert secs).2.check env fuel x).1 ≠ .hang →
    ((run env isCert Policy.init (Spec.history [] secs checks)).check env fuel x).1 = ((Policy.init.load env isCert secs).2.check env fuel x).1

/-- A checker with a hyper-relation: the key locator matches `^<k>(<>)?$` and its group equals the packet's name. -/
def staleHyper : Sec := .mk [] [(wKRegex, leaf [94, 60, 107, 62, 40, 60, 62, 41, 63, 36]), (wKExpand, leaf [92, 49]), (wHRelation, leaf wEqual),
  (wPRegex, leaf hierP), (wPExpand, leaf [92, 49])]
def staleLocator : Sec := .mk [] [(wType, leaf wName), (wHyper, staleHyper)]
def staleChecker : Bytes × Sec := (wChecker, .mk [] [(wType, leaf wCustomized), (wKeyLocator, staleLocator)])

def staleK : Spec.Pattern := ⟨true, true, .comp [107] .one (.group (.comp [] .one .nil) .opt .nil)⟩

def staleSecs : List (Bytes × Sec) := [exRule [staleChecker]]
def staleSects : List Spec.Sect := [.rule false ⟨[], [⟨3, .hyper hierPTop [92, 49] staleK [92, 49] .equal⟩]⟩]

theorem stale_wf : staleK.pat.WF Regex.nameEnv :=
  ⟨⟨Regex.bal_none (by decide) (by decide), by decide, by decide⟩, trivial,
    ⟨empty_wf exStd, trivial, trivial⟩, Regex.bal_none (by decide) (by decide), trivial, trivial⟩

theorem staleKind : Spec.SaysKind Regex.nameEnv staleLocator.kids (.hyper hierPTop [92, 49] staleK [92, 49] .equal) :=
  .hyper wType wHyper wKRegex wKExpand wHRelation wPRegex wPExpand (leaf wName) staleHyper (leaf [94, 60, 107, 62, 40, 60, 62, 41, 63, 36]) (leaf [92, 49])
    (leaf wEqual) (leaf hierP) (leaf [92, 49]) [] hierPTop staleK .equal (by unfold Spec.Is; decide) (by unfold Spec.Is; decide) (by unfold Spec.Is; decide) rfl
    (by unfold Spec.Is; decide) (by unfold Spec.Is; decide) (by unfold Spec.Is; decide) (by unfold Spec.Is; decide) (by unfold Spec.Is; decide)
    ⟨by decide, by decide, stale_wf⟩ (.equal _ (by unfold Spec.Is; decide)) ⟨by decide, by decide, hierP_wf exStd⟩

theorem staleSays : Spec.SaysConfig Regex.nameEnv (fun _ => true) staleSecs staleSects :=
  ⟨.cons (.rule _ _ _ _ (by unfold Spec.Is; decide) (.mk wId wFor (leaf [114]) (leaf wData) false [] [staleChecker] _ _
      (by unfold Spec.Is; decide) (by unfold Spec.Is; decide) (by unfold Spec.Is; decide) .nil
      (.cons ⟨by unfold Spec.Is; decide, .customized wType (leaf wCustomized) [] 3 wKeyLocator staleLocator _ (by unfold Spec.Is; decide) (by unfold Spec.Is; decide) .default
        (by unfold Spec.Is; decide) staleKind⟩ .nil) (by simp))) .nil, .nil⟩

/-- `/b` signed with the key locator `/k` is refused by a new validator; after a packet with the key locator `/k/b` was
checked, it is allowed: the group `(<>)?` takes no part in matching `/k` and keeps what it captured before. -/
theorem C59_history_counterexample : ¬ C59_history_claim := by
  intro hc
  have := hc _ _ exStd staleSecs staleSects staleSays (by
    intro b r hr
    cases b <;> simp [staleSects, Spec.rules] at hr
    subst hr
    simp only [Spec.Rule.patterns, Spec.Filter.patterns, Spec.Kind.patterns, List.flatMap_nil, List.flatMap_cons, List.append_nil, List.nil_append,
      List.mem_cons, List.not_mem_nil, or_false]
    rintro t (rfl | rfl)
    · exact ⟨⟨trivial, Or.inl rfl, trivial⟩, ⟨trivial, fun e => by simp [Regex.Spec.Q.max] at e, trivial⟩⟩
    · exact ⟨⟨trivial, Or.inr (Or.inl rfl), trivial⟩, ⟨trivial, fun e => by simp [Regex.Spec.Q.max] at e, trivial⟩⟩)
    [(10, .data [comp [98]] (ecdsa [comp [107], comp [98]]))] 10 (.data [comp [98]] (ecdsa [comp [107]])) (by decide +kernel) (by decide +kernel)
  revert this
  decide +kernel

/-- The claim: a configuration that is refused has no effect on what is accepted. -/
def C59_refused_claim : Prop := ∀ (env : REnv) (isCert : Bytes → Bool) (secs : List (Bytes × Sec)) (fuel : Nat) (x : Pkt),
  (Policy.init.load env isCert secs).1 = .throws →
    ((Policy.init.load env isCert secs).2.check env fuel x).1 = (Policy.init.check env fuel x).1

/-- The anchor `any` followed by a section with a misspelt name: `load` throws, and every packet is accepted from then on. -/
theorem C59_refused_counterexample : ¬ C59_refused_claim := by
  intro hc
  have := hc Regex.nameEnv (fun _ => true) [(wTrustAnchor, .mk [] [(wType, leaf wAny)]), ([114], leaf [])] 10 (.data [comp [97]] digest) (by decide +kernel)
  revert this
  decide +kernel

/-- The claim: a check ends with a decision, not with an exception. -/
def C59_exception_claim : Prop := ∀ (env : REnv) (isCert : Bytes → Bool), StdRegex env → ∀ (secs : List (Bytes × Sec)) (fuel : Nat) (x : Pkt),
  ((Policy.init.load env isCert secs).2.check env fuel x).1 ≠ .throws

/-- `rule { id r  for data  checker { type customized  key-locator { type name  name /a  relation is-prefix-of } } }` -/
def nameSecs (uri rel : Bytes) : List (Bytes × Sec) := [exRule [(wChecker, .mk [] [(wType, leaf wCustomized),
  (wKeyLocator, .mk [] [(wType, leaf wName), (wName, leaf uri), (wRelation, leaf rel)])])]]

/-- A received packet whose key locator is a name without `KEY` makes the check of such a rule throw. -/
theorem C59_exception_counterexample : ¬ C59_exception_claim := by
  intro hc
  exact hc Regex.nameEnv (fun _ => true) exStd (nameSecs [47, 97] wIsPrefix) 10 (.data [comp [97]] (ecdsa [comp [97]])) (by decide +kernel)

/-- A checker that demands a key name (as in the documentation: `name /a/KEY/1`, `relation equal`) is never satisfied:
the relation is checked against the identity `/a` only. -/
theorem C59_keyname_counterexample : ((Policy.init.load Regex.nameEnv (fun _ => true) (nameSecs [47, 97, 47, 75, 69, 89, 47, 49] wEqual)).1 = .ok ()) ∧
    ∀ name, ((Policy.init.load Regex.nameEnv (fun _ => true) (nameSecs [47, 97, 47, 75, 69, 89, 47, 49] wEqual)).2.check Regex.nameEnv 10
      (.data name (ecdsa [comp [97], keyComp, comp [49]]))).1 = .ok .fail := by
  refine ⟨by decide +kernel, fun name => ?_⟩
  have h : (Policy.init.load Regex.nameEnv (fun _ => true) (nameSecs [47, 97, 47, 75, 69, 89, 47, 49] wEqual)).2 =
      ⟨false, true, [⟨[], [⟨3, .relation [comp [97], keyComp, comp [49]] .equal⟩]⟩], [], []⟩ := by rfl
  rw [h]
  rfl

/-- The claim: a section with a property that is not part of the language is refused. Properties after `sig-type sha256` are ignored, so that
a misspelt `key-locator` removes the restriction. -/
theorem C59_ignored_counterexample : (Policy.init.load Regex.nameEnv (fun _ => true)
      [exRule [(wChecker, .mk [] [(wType, leaf wCustomized), (wSigType, leaf wSha), ([107], .mk [] [(wType, leaf wName)])])]]).1 = .ok () ∧
    ((Policy.init.load Regex.nameEnv (fun _ => true)
      [exRule [(wChecker, .mk [] [(wType, leaf wCustomized), (wSigType, leaf wSha), ([107], .mk [] [(wType, leaf wName)])])]]).2.check Regex.nameEnv 10
        (.data [comp [97]] digest)).1 = .ok (.request digestIdentity) := by
  constructor <;> decide +kernel

/-- Configurations on which reading is undefined: an empty `regex`; an empty `refresh`; a refresh period beyond 64 bits of nanoseconds. -/
theorem C59_undefined_counterexample : (Policy.init.load Regex.nameEnv (fun _ => true)
      [exRule [(wFilter, .mk [] [(wType, leaf wName), (wRegex, leaf [])]), exHier]]).1 = .ub ∧
    (Policy.init.load Regex.nameEnv (fun _ => true)
      [(wTrustAnchor, .mk [] [(wType, leaf wDir), (wDir, leaf [97]), (wRefresh, leaf [])])]).1 = .ub ∧
    (Policy.init.load Regex.nameEnv (fun _ => true)
      [(wTrustAnchor, .mk [] [(wType, leaf wDir), (wDir, leaf [97]), (wRefresh, leaf [51, 48, 48, 48, 48, 48, 48, 104])])]).1 = .ub := by
  refine ⟨?_, ?_, ?_⟩ <;> decide +kernel

/-- The two hierarchies differ: a key locator that ends with `KEY` satisfies the simple hierarchy only, one with `KEY` twice gives different
identities, and the digest identity is an identity for the simple hierarchy only. -/
theorem C60_hierarchies_differ :
    simpleHierarchy (.data [comp [97]] (ecdsa [comp [97], keyComp])) = .request [comp [97], keyComp] ∧
    (exPolicy.check Regex.nameEnv 10 (.data [comp [97]] (ecdsa [comp [97], keyComp]))).1 = .ok .fail ∧
    simpleHierarchy (.data [comp [97]] (ecdsa [comp [97], keyComp, keyComp])) = .fail ∧
    (exPolicy.check Regex.nameEnv 10 (.data [comp [97]] (ecdsa [comp [97], keyComp, keyComp]))).1 = .ok (.request [comp [97], keyComp, keyComp]) ∧
    simpleHierarchy (.data digestIdentity digest) = .request digestIdentity := by
  refine ⟨?_, ?_, ?_, ?_, ?_⟩ <;> decide +kernel

/-! A check that does not end. -/

section
open Ndn.Regex
theorem loop_never (fuel : Nat) (s : Regex.TS Comp) : (topOf nameEnv loopTop).match nameEnv fuel [comp [98]] s = none := by
  -- the group matches the empty name and not `/b`
  have inner : ∀ (fuel : Nat) (s : Store Comp), ∃ s1, matchM nameEnv (fuel + 1) (.group 0 (.cons (.rep (.set true [⟨[97], 1, 0⟩]) 0 none) .nil)) [comp [98]] s = some (false, s1) := by
    intro fuel s; exact ⟨_, rfl⟩
  have inner0 : ∀ (fuel : Nat) (s : Store Comp), ∃ s1, matchM nameEnv (fuel + 1) (.group 0 (.cons (.rep (.set true [⟨[97], 1, 0⟩]) 0 none) .nil)) [] s = some (true, s1) := by
    intro fuel s; exact ⟨_, rfl⟩
  have rep : ∀ (F fuel k : Nat) (s : Store Comp),
      repMatch (fun w s => matchM nameEnv (F + 1) (.group 0 (.cons (.rep (.set true [⟨[97], 1, 0⟩]) 0 none) .nil)) w s) 0 none fuel k [comp [98]] s = none := by
    intro F fuel
    induction fuel with
    | zero => intro k s; rfl
    | succ fuel ih =>
      intro k s
      unfold repMatch
      simp only [full, Bool.false_eq_true, and_false, if_false]
      rw [if_neg (by simp), List.length_singleton, tryLen_eq]
      obtain ⟨s1, e1⟩ := inner F s
      simp only [List.take_succ_cons, List.take_zero, e1]
      simp only [Bool.false_eq_true, if_false]
      rw [tryLen_eq]
      obtain ⟨s2, e2⟩ := inner0 F s1
      simp only [List.take_zero, e2, if_true, List.drop_zero, ih]
  have top : ∀ s, matchM nameEnv fuel (toM nameEnv (primaryPat loopTop) 0) [comp [98]] s = none := by
    intro s
    cases fuel with
    | zero => rfl
    | succ F =>
      show tryLen (fun w s => matchM nameEnv (F + 1) (.rep (.group 0 (.cons (.rep (.set true [⟨[97], 1, 0⟩]) 0 none) .nil)) 0 none) w s) _ 1 [comp [98]] s = none
      rw [tryLen_eq]
      have : matchM nameEnv (F + 1) (.rep (.group 0 (.cons (.rep (.set true [⟨[97], 1, 0⟩]) 0 none) .nil)) 0 none) [comp [98]] s = none := by
        unfold matchM
        rw [if_neg (by simp)]
        exact rep F (F + 1) 0 s
      simp only [List.take_succ_cons, List.take_zero, this]
  unfold Top.match
  have e := top s.primary
  have : (topOf nameEnv loopTop).primary.1 = toM nameEnv (primaryPat loopTop) 0 := rfl
  rw [this, e]

end

/-- The claim: every check of a loaded configuration ends. -/
def C59_terminates_claim : Prop := ∀ (env : REnv) (isCert : Bytes → Bool), StdRegex env → ∀ (secs : List (Bytes × Sec)),
  (Policy.init.load env isCert secs).1 = .ok () → ∀ (x : Pkt), ∃ fuel, ((Policy.init.load env isCert secs).2.check env fuel x).1 ≠ .hang

/-- With the filter `^(<a>*)*$` the check of `/b` does not end. -/
theorem C59_terminates_counterexample : ¬ C59_terminates_claim := by
  intro hc
  obtain ⟨fuel, hf⟩ := hc Regex.nameEnv (fun _ => true) exStd [exRule [(wFilter, .mk [] [(wType, leaf wName), (wRegex, leaf Regex.loopTop.print)]), exHier]]
    (by decide +kernel) (.data [comp [98]] digest)
  apply hf
  have h : (Policy.init.load Regex.nameEnv (fun _ => true) [exRule [(wFilter, .mk [] [(wType, leaf wName), (wRegex, leaf Regex.loopTop.print)]), exHier]]).2 =
      ⟨false, true, [⟨[.regex (Regex.topOf Regex.nameEnv Regex.loopTop) Regex.TS.init], [⟨3, .hyper (Regex.topOf Regex.nameEnv hierPTop) hierExpand
        (Regex.topOf Regex.nameEnv hierKTop) hierExpand .isPrefixOf Regex.TS.init Regex.TS.init⟩]⟩], [], []⟩ := by rfl
  rw [h]
  simp only [Policy.check, Bool.false_eq_true, if_false, keyLocatorName, digest, if_true, strippedName, decide, Rule.match, List.cons_ne_nil, firstYes, Filter.match,
    Filter.matchName, loop_never]

/-- The octets of a text of ASCII characters. -/
def octets (s : String) : Bytes := s.toList.map fun c => UInt8.ofNat c.toNat

/-- The words of the configuration language, as the manual spells them. -/
theorem C59_keywords :
    wRule = octets "rule" ∧ wTrustAnchor = octets "trust-anchor" ∧ wId = octets "id" ∧ wFor = octets "for" ∧
    wData = octets "data" ∧ wInterest = octets "interest" ∧ wFilter = octets "filter" ∧ wChecker = octets "checker" ∧
    wType = octets "type" ∧ wName = octets "name" ∧ wRelation = octets "relation" ∧ wRegex = octets "regex" ∧
    wCustomized = octets "customized" ∧ wHierarchical = octets "hierarchical" ∧ wSigType = octets "sig-type" ∧ wKeyLocator = octets "key-locator" ∧
    wHyper = octets "hyper-relation" ∧ wKRegex = octets "k-regex" ∧ wKExpand = octets "k-expand" ∧ wHRelation = octets "h-relation" ∧
    wPRegex = octets "p-regex" ∧ wPExpand = octets "p-expand" ∧ wRsa = octets "rsa-sha256" ∧ wEcdsa = octets "ecdsa-sha256" ∧
    wSha = octets "sha256" ∧ wEqual = octets "equal" ∧ wIsPrefix = octets "is-prefix-of" ∧ wIsStrict = octets "is-strict-prefix-of" ∧
    wFile = octets "file" ∧ wFileName = octets "file-name" ∧ wBase64 = octets "base64" ∧ wBase64String = octets "base64-string" ∧
    wDir = octets "dir" ∧ wAny = octets "any" ∧ wRefresh = octets "refresh" := by decide +kernel

/-- Two octets that are the same, or the two cases of one letter of the alphabet. -/
def SameLetter (c d : UInt8) : Prop :=
  c = d ∨ (65 ≤ c.toNat ∧ c.toNat ≤ 90 ∧ d.toNat = c.toNat + 32) ∨ (65 ≤ d.toNat ∧ d.toNat ≤ 90 ∧ c.toNat = d.toNat + 32)

/-- Two texts that differ in the case of letters only. -/
inductive SameText : Bytes → Bytes → Prop
  | nil : SameText [] []
  | cons {c d : UInt8} {a b : Bytes} : SameLetter c d → SameText a b → SameText (c :: a) (d :: b)

theorem lower_iff (c d : UInt8) : lower c = lower d ↔ SameLetter c d := by
  have hc := c.toNat_lt
  have hd := d.toNat_lt
  unfold lower SameLetter
  simp only [UInt8.le_iff_toNat_le, ← UInt8.toNat_inj]
  split <;> split <;> simp [UInt8.toNat_add] at * <;> omega

/-- The words are compared octet by octet without regard to the case of letters. -/
theorem C59_case (a b : Bytes) : iequals a b = true ↔ SameText a b := by
  unfold iequals
  rw [beq_iff_eq]
  induction a generalizing b with
  | nil =>
    cases b with
    | nil => simp [SameText.nil]
    | cons d b => exact ⟨fun h => by simp at h, fun h => by cases h⟩
  | cons c a ih =>
    cases b with
    | nil => exact ⟨fun h => by simp at h, fun h => by cases h⟩
    | cons d b =>
      simp only [List.map_cons, List.cons.injEq, ih, lower_iff]
      exact ⟨fun h => .cons h.1 h.2, fun h => by cases h with | cons h1 h2 => exact ⟨h1, h2⟩⟩

example : iequals [72, 89, 80, 69, 82] [104, 121, 112, 101, 114] = true := by decide

end Ndn.Config
