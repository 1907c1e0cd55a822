import Verif.Config.Decide
/-
The policy as a whole: histories of calls; termination; what the answers depend on.
-/
namespace Ndn.Config
open Ndn.Name Ndn.Packet
open Ndn.Regex (topOf Dot Result)

/-- A policy stands for a configuration. -/
structure RepP (env : REnv) (p : Policy) (xs : List Spec.Sect) : Prop where
  bypass : p.bypass = true ↔ Spec.Sect.anchor .any ∈ xs
  data : Spec.All (RepR env) p.dataRules (Spec.rules false xs)
  interest : Spec.All (RepR env) p.interestRules (Spec.rules true xs)

/-- A policy that was never configured is as new. -/
def Fresh (p : Policy) : Prop := p.configured = false → p = Policy.init

theorem loadSections_configured (env : REnv) (isCert : Bytes → Bool) (secs : List (Bytes × Sec)) (p : Policy) :
    (loadSections env isCert p secs).2.configured = p.configured := by
  induction secs generalizing p with
  | nil => rfl
  | cons a secs ih =>
    obtain ⟨k, s⟩ := a
    simp only [loadSections]
    split
    · rename_i p' h
      rw [ih]
      unfold loadSection at h
      split at h
      · rw [bind_ok] at h
        obtain ⟨x, _, h⟩ := h
        simp only [Result.ok.injEq] at h
        subst h
        split <;> rfl
      · split at h
        · rw [bind_ok] at h
          obtain ⟨x, _, h⟩ := h
          cases x with
          | any => simp only [Result.ok.injEq] at h; subst h; rfl
          | group a =>
            simp only at h
            split at h
            · simp only [Result.ok.injEq] at h; subst h; rfl
            · simp at h
        · simp at h
    · rfl
    · rfl

theorem decide_nil (env : REnv) (fuel : Nat) (t : Option Nat) (n : Option (List Comp)) (kl : List Comp) : (decide env fuel t n kl []).2 = [] := rfl

theorem check_init (env : REnv) (fuel : Nat) (x : Pkt) : (Policy.init.check env fuel x).2 = Policy.init := by
  unfold Policy.check
  split
  · rw [if_neg (by simp [Policy.init])]; split <;> rfl
  · split
    · rfl
    · rw [if_neg (by simp [Policy.init])]
      split
      · rfl
      · split <;> rfl

theorem check_configured (env : REnv) (fuel : Nat) (p : Policy) (x : Pkt) : (p.check env fuel x).2.configured = p.configured := by
  unfold Policy.check
  split
  · split
    · rfl
    · split <;> rfl
  · split
    · rfl
    · split
      · rfl
      · split
        · rfl
        · split <;> rfl

theorem step_fresh (env : REnv) (isCert : Bytes → Bool) (p : Policy) (h : Fresh p) (o : Op) : Fresh (step env isCert p o) := by
  cases o with
  | load secs =>
    intro e
    have := loadSections_configured env isCert secs { (if p.configured then Policy.init else p) with configured := true }
    rw [show (step env isCert p (.load secs)) = (loadSections env isCert { (if p.configured then Policy.init else p) with configured := true } secs).2 from rfl, this] at e
    simp at e
  | check fuel x =>
    intro e
    have e : (p.check env fuel x).2.configured = false := e
    rw [check_configured] at e
    show (p.check env fuel x).2 = _
    rw [h e, check_init]

theorem run_fresh (env : REnv) (isCert : Bytes → Bool) (ops : List Op) (p : Policy) (h : Fresh p) : Fresh (run env isCert p ops) := by
  induction ops generalizing p with
  | nil => exact h
  | cons o ops ih => exact ih _ (step_fresh env isCert p h o)

theorem run_append (env : REnv) (isCert : Bytes → Bool) (a b : List Op) (p : Policy) : run env isCert p (a ++ b) = run env isCert (run env isCert p a) b := by
  induction a generalizing p with
  | nil => rfl
  | cons o a ih => exact ih _

/-- The policy a configuration is added to. -/
def blank : Policy := { Policy.init with configured := true }

theorem load_eq (env : REnv) (isCert : Bytes → Bool) (p : Policy) (h : Fresh p) (secs : List (Bytes × Sec)) :
    p.load env isCert secs = loadSections env isCert blank secs := by
  unfold Policy.load
  congr 1
  cases hc : p.configured with
  | false => rw [h hc]; rfl
  | true => rfl

theorem any_mem (xs : List Spec.Sect) : (xs.any (fun x => match x with | .anchor .any => true | _ => false)) = true ↔ Spec.Sect.anchor .any ∈ xs := by
  rw [List.any_eq_true]
  constructor
  · rintro ⟨x, h1, h2⟩
    split at h2
    · exact h1
    · simp at h2
  · intro h; exact ⟨_, h, rfl⟩

theorem load_ok {env : REnv} (h : StdRegex env) (isCert : Bytes → Bool) (p p' : Policy) (hp : Fresh p) (secs : List (Bytes × Sec)) :
    p.load env isCert secs = (.ok (), p') ↔ ∃ xs, Spec.SaysConfig env isCert secs xs ∧ p' = addSects env blank xs := by
  rw [load_eq env isCert p hp, loadSections_ok h isCert secs blank p' .nil]
  constructor
  · rintro ⟨xs, h1, h2, h3⟩; exact ⟨xs, ⟨h1, h2⟩, h3⟩
  · rintro ⟨xs, ⟨h1, h2⟩, h3⟩; exact ⟨xs, h1, h2, h3⟩

theorem rep_add {env : REnv} {isCert : Bytes → Bool} {secs : List (Bytes × Sec)} {xs : List Spec.Sect} (h : Spec.SaysConfig env isCert secs xs) :
    RepP env (addSects env blank xs) xs := by
  refine ⟨?_, ?_, ?_⟩
  · show (false || _) = true ↔ _
    rw [Bool.false_or]
    exact any_mem xs
  · exact rep_rules h.1 false
  · exact rep_rules h.1 true

/-! ### Checks -/

theorem signed_unique {x : Pkt} {i j : SigInfo} (h1 : Spec.Signed x i) (h2 : Spec.Signed x j) : i = j := by
  cases x with
  | data n k => cases h1; cases h2; rfl
  | interest n sig =>
    have a := (signatureInfo_iff n sig i).2 h1
    rw [(signatureInfo_iff n sig j).2 h2] at a
    exact (Option.some.inj a).symm

theorem locates_unique {i : SigInfo} {a b : List Comp} (h1 : Spec.Locates i a) (h2 : Spec.Locates i b) : a = b := by
  have e := (keyLocatorName_iff i a).2 h1
  rw [(keyLocatorName_iff i b).2 h2] at e
  exact (Option.some.inj e).symm

def SolidC (env : REnv) (xs : List Spec.Sect) : Prop := ∀ b, ∀ r ∈ Spec.rules b xs, ∀ t ∈ r.patterns, t.pat.Solid env

theorem check_rep {env : REnv} (h : StdRegex env) (fuel : Nat) (p : Policy) (xs : List Spec.Sect) (hr : RepP env p xs) (x : Pkt) :
    RepP env (p.check env fuel x).2 xs ∧ (SolidC env xs → (p.check env fuel x).1 ≠ .hang → Spec.Outcome env xs x (p.check env fuel x).1) := by
  cases x with
  | data name info =>
    have hx : ∀ n, Pkt.data name info ≠ .interest n .malformed := by simp
    simp only [Policy.check]
    split
    · rename_i hb
      exact ⟨hr, fun _ _ => .any _ hx (hr.bypass.1 hb)⟩
    · rename_i hb
      have hb : Spec.Sect.anchor .any ∉ xs := fun e => hb (hr.bypass.2 e)
      cases hk : keyLocatorName info with
      | none =>
        refine ⟨hr, fun _ _ => .unlocated _ hb fun i kl h1 h2 => ?_⟩
        cases h1
        rw [(keyLocatorName_iff _ _).2 h2] at hk
        simp at hk
      | some kl =>
        obtain ⟨d1, d2⟩ := decide_rep h fuel _ hx info kl hr.data
        refine ⟨⟨hr.bypass, d1, hr.interest⟩, fun hs hne => ?_⟩
        obtain ⟨v, v1, v2⟩ := d2 (hs false) hne
        exact .rules _ info kl v _ hb (.data name info) ((keyLocatorName_iff _ _).1 hk) v2 v1
  | interest name sig =>
    have main : sig ≠ .malformed → (let c := (if p.bypass then (Out.ok .bypass, p)
        else match signatureInfo name sig with
          | none => (.ok .fail, p)
          | some info =>
            match keyLocatorName info with
            | none => (.ok .fail, p)
            | some kl =>
              let r := decide env fuel info.type (strippedName name (some sig)) kl p.interestRules
              (r.1, { p with interestRules := r.2 }));
        RepP env c.2 xs ∧ (SolidC env xs → c.1 ≠ .hang → Spec.Outcome env xs (.interest name sig) c.1)) := by
      intro hm
      have hx : ∀ n, Pkt.interest name sig ≠ .interest n .malformed := by
        rintro n e; cases e; exact hm rfl
      simp only
      split
      · rename_i hb
        exact ⟨hr, fun _ _ => .any _ hx (hr.bypass.1 hb)⟩
      · rename_i hb
        have hb : Spec.Sect.anchor .any ∉ xs := fun e => hb (hr.bypass.2 e)
        cases hi : signatureInfo name sig with
        | none =>
          refine ⟨hr, fun _ _ => .unlocated _ hb fun i kl h1 _ => ?_⟩
          rw [(signatureInfo_iff _ _ _).2 h1] at hi
          simp at hi
        | some info =>
          have hi' := (signatureInfo_iff _ _ _).1 hi
          simp only
          cases hk : keyLocatorName info with
          | none =>
            refine ⟨hr, fun _ _ => .unlocated _ hb fun i kl h1 h2 => ?_⟩
            rw [signed_unique h1 hi', ← keyLocatorName_iff, hk] at h2
            simp at h2
          | some kl =>
            obtain ⟨d1, d2⟩ := decide_rep h fuel _ hx info kl hr.interest
            refine ⟨⟨hr.bypass, hr.data, d1⟩, fun hs hne => ?_⟩
            obtain ⟨v, v1, v2⟩ := d2 (hs true) hne
            exact .rules _ info kl v _ hb hi' ((keyLocatorName_iff _ _).1 hk) v2 v1
    cases sig with
    | malformed => exact ⟨hr, fun _ _ => .malformed name⟩
    | v03 info => exact main (by simp)
    | v02 => exact main (by simp)

theorem history_rep {env : REnv} (h : StdRegex env) (isCert : Bytes → Bool) (ops : List Op) (secs : List (Bytes × Sec)) (xs : List Spec.Sect)
    (hc : Spec.SaysConfig env isCert secs xs) (cs : List (Nat × Pkt)) : RepP env (run env isCert Policy.init (Spec.history ops secs cs)) xs := by
  unfold Spec.history
  rw [run_append]
  have hf := run_fresh env isCert ops Policy.init (fun _ => rfl)
  generalize run env isCert Policy.init ops = p at hf
  have hl := (load_ok h isCert p _ hf secs).2 ⟨xs, hc, rfl⟩
  simp only [run, step]
  rw [hl]
  have : ∀ (q : Policy), RepP env q xs → RepP env (run env isCert q (cs.map fun c => .check c.1 c.2)) xs := by
    induction cs with
    | nil => intro q hq; exact hq
    | cons c cs ih => intro q hq; exact ih _ (check_rep h c.1 q xs hq c.2).1
  exact this _ (rep_add hc)

/-! ### Termination -/

def Enough (x : Pkt) (kl : List Comp) (fuel : Nat) : Prop := (∀ n, subjectOf x = some n → n.length < fuel) ∧ kl.length < fuel ∧ 3 < fuel

def Ends (env : REnv) (fuel : Nat) (t : Spec.Pattern) : Prop := t.pat.Bounded env ∧ Regex.bound (Regex.primaryPat t) < fuel

theorem firstYes_nohang {α β : Type} {f : α → Out Bool × α} {R : α → β → Prop} {as : List α} {bs : List β} (h : Spec.All R as bs)
    (hf : ∀ a b, R a b → b ∈ bs → (f a).1 ≠ .hang) : (firstYes f as).1 ≠ .hang := by
  induction h with
  | nil => simp [firstYes]
  | @cons a b as bs h1 h2 ih =>
    have := hf a b h1 (by simp)
    unfold firstYes
    split
    · exact ih (fun a b h hb => hf a b h (by simp [hb]))
    · rename_i o x' _ hx
      rw [hx] at this
      exact this

theorem filter_nohang {env : REnv} (hd : Dot env) (fuel : Nat) (x : Pkt) (kl : List Comp) (he : Enough x kl fuel) (f : Filter) (g : Spec.Filter)
    (h : RepF env f g) (hp : ∀ t ∈ g.patterns, Ends env fuel t) : (f.match env fuel (subjectOf x)).1 ≠ .hang := by
  unfold Filter.match
  cases hs : subjectOf x with
  | none => simp
  | some n =>
    cases h with
    | relation m r => simp [Filter.matchName]
    | regex t s hne hw =>
      have := Regex.top_tot hd hw (hp t (by simp [Spec.Filter.patterns])).1 (s := s) (he.1 n hs) (hp t (by simp [Spec.Filter.patterns])).2
      simp only [Filter.matchName]
      split
      · rename_i e; rw [e] at this; simp at this
      · simp

theorem kind_nohang {env : REnv} (h : StdRegex env) (fuel : Nat) (n kl : List Comp) (hn : n.length < fuel) (hk : kl.length < fuel) (h3 : 3 < fuel)
    (k : Kind) (g : Spec.Kind) (hr : RepK env k g) (hp : ∀ t ∈ g.patterns, Ends env fuel t) : (k.checkNames env fuel n kl).1 ≠ .hang := by
  have hyp : ∀ (p k : Regex.Top) (pe ke : Bytes) (r : Relation) (s s' : TS), (p.match env fuel n s).isSome → (∀ s, (k.match env fuel kl s).isSome) →
      ((Kind.hyper p pe k ke r s s').checkNames env fuel n kl).1 ≠ .hang := by
    intro p k pe ke r s s' h1 h2
    simp only [Kind.checkNames]
    split
    · rename_i e; rw [e] at h1; simp at h1
    · simp
    · split
      · rename_i e; have := h2 s'; rw [e] at this; simp at this
      · simp
      · split
        · simp
        · split <;> simp
  cases hr with
  | plain => simp [Kind.checkNames]
  | relation m r => simp only [Kind.checkNames]; split <;> simp
  | regex t s hne hw =>
    have := Regex.top_tot h.dot hw (hp t (by simp [Spec.Kind.patterns])).1 (s := s) hk (hp t (by simp [Spec.Kind.patterns])).2
    simp only [Kind.checkNames]
    split
    · rename_i e; rw [e] at this; simp at this
    · simp
  | hyper p pe k ke r s s' n1 w1 n2 w2 =>
    exact hyp _ _ _ _ _ _ _ (Regex.top_tot h.dot w1 (hp p (by simp [Spec.Kind.patterns])).1 hn (hp p (by simp [Spec.Kind.patterns])).2)
      (fun s => Regex.top_tot h.dot w2 (hp k (by simp [Spec.Kind.patterns])).1 hk (hp k (by simp [Spec.Kind.patterns])).2)
  | hierarchical s s' => exact hyp _ _ _ _ _ _ _ (hierP_tot h fuel n hn h3 s) (fun s => hierK_tot h fuel kl hk h3 s)

theorem checker_nohang {env : REnv} (h : StdRegex env) (fuel : Nat) (x : Pkt) (kl : List Comp) (he : Enough x kl fuel) (st : Option Nat) (c : Checker) (d : Spec.Checker)
    (hr : RepC env c d) (hp : ∀ t ∈ d.kind.patterns, Ends env fuel t) : (c.check env fuel st (subjectOf x) kl).1 ≠ .hang := by
  unfold Checker.check
  split
  · simp
  · cases hs : subjectOf x with
    | none => simp
    | some n => exact kind_nohang h fuel n kl (he.1 n hs) he.2.1 he.2.2 _ _ hr.2 hp

theorem decide_nohang {env : REnv} (h : StdRegex env) (fuel : Nat) (x : Pkt) (hx : ∀ n, x ≠ .interest n .malformed) (info : SigInfo) (kl : List Comp) (he : Enough x kl fuel)
    {rs : List Rule} {qs : List Spec.Rule} (hr : Spec.All (RepR env) rs qs) (hp : ∀ q ∈ qs, ∀ t ∈ q.patterns, Ends env fuel t) :
    (decide env fuel info.type (subjectOf x) kl rs).1 ≠ .hang := by
  induction hr with
  | nil => simp [decide]
  | @cons r q rs qs h1 h2 ih =>
    have hq := hp q (by simp)
    have m0 := rule_match h fuel x hx r q h1
    have m1 : (r.match env fuel (subjectOf x)).1 ≠ .hang := by
      unfold Rule.match
      split
      · simp
      · exact firstYes_nohang h1.1 fun a b hab hb => filter_nohang h.dot fuel x kl he a b hab fun t ht =>
          hq t (List.mem_append_left _ (List.mem_flatMap.2 ⟨b, hb, ht⟩))
    have m2 : ∀ r', RepR env r' q → (r'.check env fuel info.type (subjectOf x) kl).1 ≠ .hang := by
      intro r' hr'
      unfold Rule.check
      exact firstYes_nohang hr'.2 fun a b hab hb => checker_nohang h fuel x kl he info.type a b hab fun t ht =>
          hq t (List.mem_append_right _ (List.mem_flatMap.2 ⟨b, hb, ht⟩))
    unfold decide
    split
    · exact ih fun q hq => hp q (List.mem_cons_of_mem _ hq)
    · rename_i r' hm
      rw [hm] at m0
      split
      · simp
      · simp
      · simp
      · rename_i r'' hc
        have := m2 r' m0.1
        rw [hc] at this
        exact absurd rfl this
    · simp
    · rename_i r' hm
      rw [hm] at m1
      exact absurd rfl m1

theorem bound_all (ts : List Spec.Pattern) : ∃ N, ∀ t ∈ ts, Regex.bound (Regex.primaryPat t) < N := by
  induction ts with
  | nil => exact ⟨0, by simp⟩
  | cons t ts ih =>
    obtain ⟨N, h⟩ := ih
    refine ⟨max N (Regex.bound (Regex.primaryPat t) + 1), fun u hu => ?_⟩
    rcases List.mem_cons.1 hu with rfl | hu
    · omega
    · have := h u hu; omega

theorem check_nohang {env : REnv} (h : StdRegex env) (xs : List Spec.Sect) (hb : ∀ b, ∀ r ∈ Spec.rules b xs, ∀ t ∈ r.patterns, t.pat.Bounded env) (x : Pkt) :
    ∃ N, ∀ p, RepP env p xs → ∀ fuel, N ≤ fuel → (p.check env fuel x).1 ≠ .hang := by
  obtain ⟨N1, b1⟩ := bound_all ((Spec.rules false xs).flatMap Spec.Rule.patterns)
  obtain ⟨N2, b2⟩ := bound_all ((Spec.rules true xs).flatMap Spec.Rule.patterns)
  have key : ∀ (kl : List Comp), ∃ N, ∀ fuel, N ≤ fuel → Enough x kl fuel := by
    intro kl
    refine ⟨(match subjectOf x with | none => 0 | some n => n.length + 1) + kl.length + 5, fun fuel hf => ⟨fun n hn => ?_, ?_, ?_⟩⟩
    · rw [hn] at hf; simp only at hf; omega
    · omega
    · omega
  have e1 : ∀ fuel, N1 ≤ fuel → ∀ q ∈ Spec.rules false xs, ∀ t ∈ q.patterns, Ends env fuel t := fun fuel hf q hq t ht =>
    ⟨hb false q hq t ht, Nat.lt_of_lt_of_le (b1 t (List.mem_flatMap.2 ⟨q, hq, ht⟩)) hf⟩
  have e2 : ∀ fuel, N2 ≤ fuel → ∀ q ∈ Spec.rules true xs, ∀ t ∈ q.patterns, Ends env fuel t := fun fuel hf q hq t ht =>
    ⟨hb true q hq t ht, Nat.lt_of_lt_of_le (b2 t (List.mem_flatMap.2 ⟨q, hq, ht⟩)) hf⟩
  cases x with
  | data name info =>
    cases hk : keyLocatorName info with
    | none =>
      refine ⟨0, fun p _ fuel _ => ?_⟩
      simp only [Policy.check, hk]
      split <;> simp
    | some kl =>
      obtain ⟨N, hN⟩ := key kl
      refine ⟨max N N1, fun p hr fuel hf => ?_⟩
      simp only [Policy.check, hk]
      split
      · simp
      · exact decide_nohang h fuel (.data name info) (by simp) info kl (hN fuel (by omega)) hr.data (e1 fuel (by omega))
  | interest name sig =>
    cases hs : sig with
    | malformed => exact ⟨0, fun p _ fuel _ => by simp [Policy.check]⟩
    | v03 i =>
      cases hk : keyLocatorName i with
      | none => exact ⟨0, fun p _ fuel _ => by simp only [Policy.check, signatureInfo, hk]; split <;> simp⟩
      | some kl =>
        obtain ⟨N, hN⟩ := key kl
        rw [hs] at hN
        refine ⟨max N N2, fun p hr fuel hf => ?_⟩
        simp only [Policy.check, signatureInfo, hk]
        split
        · simp
        · exact decide_nohang h fuel (.interest name (.v03 i)) (by simp) i kl (hN fuel (by omega)) hr.interest (e2 fuel (by omega))
    | v02 =>
      cases hi : signatureInfo name .v02 with
      | none => exact ⟨0, fun p _ fuel _ => by simp only [Policy.check, hi]; split <;> simp⟩
      | some i =>
        cases hk : keyLocatorName i with
        | none => exact ⟨0, fun p _ fuel _ => by simp only [Policy.check, hi, hk]; split <;> simp⟩
        | some kl =>
          obtain ⟨N, hN⟩ := key kl
          rw [hs] at hN
          refine ⟨max N N2, fun p hr fuel hf => ?_⟩
          simp only [Policy.check, hi, hk]
          split
          · simp
          · exact decide_nohang h fuel (.interest name .v02) (by simp) i kl (hN fuel (by omega)) hr.interest (e2 fuel (by omega))

/-! ### Answers are determined if there are no hyper-relations -/

def Spec.Kind.isHyper : Spec.Kind → Bool
  | .hyper _ _ _ _ _ => true
  | _ => false

theorem identity_unique {kl a b : List Comp} (h1 : Spec.Identity kl a) (h2 : Spec.Identity kl b) : a = b := by
  have e := (extractIdentity_iff kl a).2 h1
  rw [(extractIdentity_iff kl b).2 h2] at e
  exact (Option.some.inj e).symm

theorem bool_of_iff {a b : Bool} {P : Prop} (h1 : a = true ↔ P) (h2 : b = true ↔ P) : a = b := by
  cases a <;> cases b <;> simp_all

theorem answer_det {env : REnv} {n kl : List Comp} {k : Spec.Kind} (hk : k.isHyper = false) {a b : Option Bool}
    (h1 : Spec.Answer env n kl k a) (h2 : Spec.Answer env n kl k b) : a = b := by
  cases h1 with
  | plain => cases h2; rfl
  | relation m r id c i1 i2 =>
    cases h2 with
    | relation _ _ id' d j1 j2 =>
      cases identity_unique i1 j1
      rw [bool_of_iff i2 j2]
    | noIdentity _ _ j => exact absurd i1 (j id)
  | noIdentity m r i =>
    cases h2 with
    | relation _ _ id' d j1 j2 => exact absurd j1 (i id')
    | noIdentity _ _ j => rfl
  | regex t c i => cases h2 with | regex _ d j => rw [bool_of_iff i j]
  | hierarchical c i => cases h2 with | hierarchical d j => rw [bool_of_iff i j]
  | _ => simp [Spec.Kind.isHyper] at hk

theorem answers_det {env : REnv} {x : Pkt} {info : SigInfo} {kl : List Comp} {c : Spec.Checker} (hk : c.kind.isHyper = false) {a b : Option Bool}
    (h1 : c.Answers env x info kl a) (h2 : c.Answers env x info kl b) : a = b := by
  unfold Spec.Checker.Answers at h1 h2
  split at h1
  · rename_i ht
    rw [if_pos ht] at h2
    rcases h1 with ⟨n, n1, n2⟩ | ⟨n1, n2⟩
    · rcases h2 with ⟨m, m1, m2⟩ | ⟨m1, m2⟩
      · cases Spec.subject_unique n1 m1
        exact answer_det hk n2 m2
      · exact absurd n1 (m1 n)
    · rcases h2 with ⟨m, m1, m2⟩ | ⟨m1, m2⟩
      · exact absurd m1 (n1 m)
      · rw [n2, m2]
  · rename_i ht
    rw [if_neg ht] at h2
    rw [h1, h2]

/-- The first element of a list with a property, whichever way it is found. -/
theorem first_unique {α : Type} {l pre pre' : List α} {c c' : α} {post post' : List α} {P : α → Prop} (e : l = pre ++ c :: post) (e' : l = pre' ++ c' :: post')
    (h1 : ∀ d ∈ pre, ¬ P d) (h2 : P c) (h1' : ∀ d ∈ pre', ¬ P d) (h2' : P c') : c = c' := by
  subst e
  rcases List.append_eq_append_iff.1 e' with ⟨t, h3, h4⟩ | ⟨t, h3, h4⟩
  · cases t with
    | nil => simp at h4; exact h4.1
    | cons a t =>
      simp only [List.cons_append, List.cons.injEq] at h4
      exact absurd h2 (h1' c (by rw [h3]; simp [h4.1]))
  · cases t with
    | nil => simp at h4; exact h4.1.symm
    | cons a t =>
      simp only [List.cons_append, List.cons.injEq] at h4
      exact absurd h2' (h1 c' (by rw [h3]; simp [h4.1]))

theorem verdict_det {env : REnv} {x : Pkt} {info : SigInfo} {kl : List Comp} {r : Spec.Rule} (hk : ∀ c ∈ r.checkers, c.kind.isHyper = false) {v w : Spec.Verdict}
    (h1 : r.Verdict env x info kl v) (h2 : r.Verdict env x info kl w) : v = w := by
  -- the first checker that does not refuse, or none
  have form : ∀ v, r.Verdict env x info kl v → (v = .refuse ∧ ∀ c ∈ r.checkers, c.Answers env x info kl (some false)) ∨
      ∃ pre c post a, r.checkers = pre ++ c :: post ∧ (∀ d ∈ pre, d.Answers env x info kl (some false)) ∧ c.Answers env x info kl a ∧
        a ≠ some false ∧ v = (if a = none then .exception else .allow) := by
    intro v h
    cases h with
    | allow pre c post e h1 h2 => exact Or.inr ⟨pre, c, post, _, e, h1, h2, by simp, by simp⟩
    | exception pre c post e h1 h2 => exact Or.inr ⟨pre, c, post, _, e, h1, h2, by simp, by simp⟩
    | refuse h => exact Or.inl ⟨rfl, h⟩
  rcases form v h1 with ⟨rfl, a1⟩ | ⟨pre, c, post, a, e, a1, a2, a3, rfl⟩ <;> rcases form w h2 with ⟨rfl, b1⟩ | ⟨pre', c', post', b, e', b1, b2, b3, rfl⟩
  · rfl
  · have hc : c' ∈ r.checkers := by rw [e']; simp
    exact absurd (answers_det (hk c' hc) b2 (a1 c' hc)) b3
  · have hc : c ∈ r.checkers := by rw [e]; simp
    exact absurd (answers_det (hk c hc) a2 (b1 c hc)) a3
  · have hc : c ∈ r.checkers := by rw [e]; simp
    have hc' : c' ∈ r.checkers := by rw [e']; simp
    have : c = c' := first_unique (P := fun d => ¬ d.Answers env x info kl (some false)) e e' (fun d hd h => h (a1 d hd))
      (fun h => a3 (answers_det (hk c hc) a2 h)) (fun d hd h => h (b1 d hd)) (fun h => b3 (answers_det (hk c' hc') b2 h))
    subst this
    rw [answers_det (hk c hc) a2 b2]

theorem decides_det {env : REnv} {x : Pkt} {info : SigInfo} {kl : List Comp} {rs : List Spec.Rule} (hk : ∀ r ∈ rs, ∀ c ∈ r.checkers, c.kind.isHyper = false) {v w : Spec.Verdict}
    (h1 : Spec.Decides env x info kl rs v) (h2 : Spec.Decides env x info kl rs w) : v = w := by
  cases h1 with
  | none a =>
    cases h2 with
    | none b => rfl
    | rule pre r post w e b1 b2 b3 => exact absurd b2 (a r (by rw [e]; simp))
  | rule pre r post v e a1 a2 a3 =>
    cases h2 with
    | none b => exact absurd a2 (b r (by rw [e]; simp))
    | rule pre' r' post' w e' b1 b2 b3 =>
      have : r = r' := first_unique e e' a1 a2 b1 b2
      subst this
      exact verdict_det (hk r (by rw [e]; simp)) a3 b3

theorem gives_det {kl : List Comp} {o o' : Out Validator.Decision} {v : Spec.Verdict} (h1 : Spec.Gives kl o v) (h2 : Spec.Gives kl o' v) : o = o' := by
  cases h1 <;> cases h2 <;> rfl

theorem outcome_det {env : REnv} {xs : List Spec.Sect} {x : Pkt} (hk : ∀ b, ∀ r ∈ Spec.rules b xs, ∀ c ∈ r.checkers, c.kind.isHyper = false)
    {o o' : Out Validator.Decision} (h1 : Spec.Outcome env xs x o) (h2 : Spec.Outcome env xs x o') : o = o' := by
  cases h1 with
  | malformed n =>
    cases h2 with
    | malformed => rfl
    | any _ h _ => exact absurd rfl (h n)
    | unlocated _ h _ => rfl
    | rules _ info kl v _ _ h _ _ _ => cases h
  | any _ a1 a2 =>
    cases h2 with
    | malformed n => exact absurd rfl (a1 n)
    | any => rfl
    | unlocated _ h _ => exact absurd a2 h
    | rules _ info kl v _ h _ _ _ _ => exact absurd a2 h
  | unlocated _ a1 a2 =>
    cases h2 with
    | malformed n => rfl
    | any _ _ h => exact absurd h a1
    | unlocated _ h _ => rfl
    | rules _ info kl v _ _ h1 h2 _ _ => exact absurd h2 (a2 info kl h1)
  | rules _ info kl v _ a1 a2 a3 a4 a5 =>
    cases h2 with
    | malformed n => cases a2
    | any _ _ h => exact absurd h a1
    | unlocated _ _ h => exact absurd a3 (h info kl a2)
    | rules _ info' kl' v' _ _ b2 b3 b4 b5 =>
      cases signed_unique a2 b2
      cases locates_unique a3 b3
      cases decides_det (hk _) a4 b4
      exact gives_det a5 b5

end Ndn.Config
