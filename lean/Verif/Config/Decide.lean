import Verif.Config.Load
/-
Checks: what the rules decide is what the configuration says, whatever was checked before.
-/
namespace Ndn.Config
open Ndn.Name Ndn.Packet
open Ndn.Regex (topOf Dot)

/-- A filter, condition, checker or rule of a policy stands for one of a configuration; the states of the matchers do
not matter. -/
inductive RepF (env : REnv) : Filter → Spec.Filter → Prop
  | relation (n : List Comp) (r : Relation) : RepF env (.relation n r) (.relation n r)
  | regex (t : Spec.Pattern) (s : TS) : t.print ≠ [] → t.pat.WF env → RepF env (.regex (topOf env t) s) (.regex t)

inductive RepK (env : REnv) : Kind → Spec.Kind → Prop
  | plain : RepK env .plain .plain
  | relation (n : List Comp) (r : Relation) : RepK env (.relation n r) (.relation n r)
  | regex (t : Spec.Pattern) (s : TS) : t.print ≠ [] → t.pat.WF env → RepK env (.regex (topOf env t) s) (.regex t)
  | hyper (p : Spec.Pattern) (pe : Bytes) (k : Spec.Pattern) (ke : Bytes) (r : Relation) (s s' : TS) :
      p.print ≠ [] → p.pat.WF env → k.print ≠ [] → k.pat.WF env →
      RepK env (.hyper (topOf env p) pe (topOf env k) ke r s s') (.hyper p pe k ke r)
  | hierarchical (s s' : TS) :
      RepK env (.hyper (topOf env hierPTop) hierExpand (topOf env hierKTop) hierExpand .isPrefixOf s s') .hierarchical

def RepC (env : REnv) (c : Checker) (d : Spec.Checker) : Prop := c.sigType = d.sigType ∧ RepK env c.kind d.kind

def RepR (env : REnv) (r : Rule) (q : Spec.Rule) : Prop :=
  Spec.All (RepF env) r.filters q.filters ∧ Spec.All (RepC env) r.checkers q.checkers

theorem repF_to {env : REnv} {kids : List (Bytes × Sec)} {f : Spec.Filter} (h : Spec.SaysFilter env kids f) : RepF env (toF env f) f := by
  cases h with
  | relation => exact .relation _ _
  | regex k1 k2 s1 s2 t _ _ _ h => exact .regex t _ (h.1 ▸ h.2.1) h.2.2

theorem repK_to {env : REnv} {kids : List (Bytes × Sec)} {f : Spec.Kind} (h : Spec.SaysKind env kids f) : RepK env (toK env f) f := by
  cases h with
  | relation => exact .relation _ _
  | regex k1 k2 s1 s2 t _ _ _ h => exact .regex t _ (h.1 ▸ h.2.1) h.2.2
  | hyper k1 k2 h1 h2 h3 h4 h5 s1 s2 t1 t2 t3 t4 t5 rest p k r a1 a2 a3 a4 b1 b2 b3 b4 b5 c1 c2 c3 =>
    exact .hyper p _ k _ r _ _ (c3.1 ▸ c3.2.1) c3.2.2 (c1.1 ▸ c1.2.1) c1.2.2

theorem repC_to {env : REnv} {kids : List (Bytes × Sec)} {c : Spec.Checker} (h : Spec.SaysChecker env kids c) : RepC env (toC env c) c := by
  refine ⟨rfl, ?_⟩
  cases h with
  | customized k1 s1 sig t k2 s2 x a1 a2 a3 a4 a5 => exact repK_to a5
  | digest => exact .plain
  | hierarchical => exact .hierarchical _ _

theorem all_map {α β γ : Type} {R : α → β → Prop} {Q : γ → β → Prop} {f : β → γ} (h : ∀ a b, R a b → Q (f b) b) {as : List α} {bs : List β}
    (ha : Spec.All R as bs) : Spec.All Q (bs.map f) bs := by
  induction ha with
  | nil => exact .nil
  | cons h1 _ ih => exact .cons (h _ _ h1) ih

theorem repR_to {env : REnv} {kids : List (Bytes × Sec)} {i : Bool} {r : Spec.Rule} (h : Spec.SaysRule env kids i r) : RepR env (toR env r) r := by
  cases h with
  | mk k1 k2 s1 s2 _ fs cs gs hs a1 a2 a3 a4 a5 a6 =>
    exact ⟨all_map (fun _ _ h => repF_to h.2) a4, all_map (fun _ _ h => repC_to h.2) a5⟩

theorem rep_rules {env : REnv} {isCert : Bytes → Bool} {secs : List (Bytes × Sec)} {xs : List Spec.Sect}
    (h : Spec.All (Spec.SaysSect env isCert) secs xs) (b : Bool) : Spec.All (RepR env) ((Spec.rules b xs).map (toR env)) (Spec.rules b xs) := by
  induction h with
  | nil => exact .nil
  | cons h1 _ ih =>
    cases h1 with
    | rule k s i r hk hr =>
      simp only [Spec.rules]
      split
      · exact .cons (repR_to hr) ih
      · exact ih
    | anchor => exact ih

/-! ### Lists -/

theorem firstYes_rep {α β : Type} {f : α → Out Bool × α} {R : α → β → Prop} {P : β → Out Bool → Prop}
    (hf : ∀ a b, R a b → R (f a).2 b ∧ P b (f a).1) {as : List α} {bs : List β} (h : Spec.All R as bs) :
    Spec.All R (firstYes f as).2 bs ∧
    ((firstYes f as).1 = .ok false → ∀ b ∈ bs, P b (.ok false)) ∧
    ((firstYes f as).1 ≠ .ok false → ∃ pre b post, bs = pre ++ b :: post ∧ (∀ d ∈ pre, P d (.ok false)) ∧ P b (firstYes f as).1) := by
  induction h with
  | nil => exact ⟨.nil, by simp, by simp [firstYes]⟩
  | @cons a b as bs h1 h2 ih =>
    obtain ⟨i1, i2, i3⟩ := ih
    obtain ⟨g1, g2⟩ := hf a b h1
    unfold firstYes
    split
    · rename_i x' hx
      rw [hx] at g1 g2
      refine ⟨.cons g1 i1, fun e d hd => ?_, fun e => ?_⟩
      · rcases List.mem_cons.1 hd with rfl | hd
        · exact g2
        · exact i2 e d hd
      · obtain ⟨pre, c, post, rfl, k1, k2⟩ := i3 e
        refine ⟨b :: pre, c, post, rfl, fun d hd => ?_, k2⟩
        rcases List.mem_cons.1 hd with rfl | hd
        · exact g2
        · exact k1 d hd
    · rename_i o x' hne hx
      rw [hx] at g1 g2
      exact ⟨.cons g1 h2, fun e => absurd e (fun e => hne e), fun _ => ⟨[], b, bs, rfl, by simp, g2⟩⟩

/-! ### Matching -/

def SolidP (env : REnv) (t : Spec.Pattern) : Prop := t.pat.Solid env

theorem top_iff {env : REnv} (hd : Dot env) {t : Spec.Pattern} (hw : t.pat.WF env) (hs : t.pat.Solid env) {fuel : Nat} {w : List Comp} {s s' : TS} {b : Bool}
    (h : (topOf env t).match env fuel w s = some (b, s')) : b = true ↔ t.Lang env w := by
  cases b with
  | false => simp only [Bool.false_eq_true, false_iff]; exact Regex.top_false hd hw hs h
  | true =>
    simp only [true_iff]
    obtain ⟨x, y, z, a, h1, h2, h3, h4, _⟩ := Regex.top_true hd hw h
    exact ⟨x, y, z, h1, (Regex.way_lang env _ 0 y).1 ⟨a, h4⟩, h2, h3⟩

theorem expands {env : REnv} (hd : Dot env) {t : Spec.Pattern} (hw : t.pat.WF env) (hne : t.print ≠ []) {fuel : Nat} {w : List Comp} {s s' : TS}
    (h : (topOf env t).match env fuel w s = some (true, s')) (e : Bytes) : Spec.Expands env t w e ((topOf env t).expand env s' e) := by
  obtain ⟨x, y, z, a, cap, h1, h2, h3, h4, h5, h6⟩ := Regex.C41_expand_partial env hd t hw _ (Regex.compileTop_print hd hw hne) fuel w s s' h
  refine ⟨x, y, z, a, cap, h1, h2, h3, h4, h5, fun is hwf he => ⟨fun ⟨u, hu⟩ => ?_, fun hl => ?_⟩⟩
  · rw [List.getLast?_eq_some_iff] at hu
    obtain ⟨ys, rfl⟩ := hu
    rw [he]
    exact Regex.C41_expand_counterexample env _ s' ys u hwf
  · rw [he]
    exact h6 is hwf hl

/-- What a filter may answer. -/
def FAns (env : REnv) (x : Pkt) (f : Spec.Filter) (o : Out Bool) : Prop :=
  o ≠ .throws ∧ ((∀ t ∈ f.patterns, t.pat.Solid env) → ∀ b, o = .ok b → (b = true ↔ f.Holds env x))

theorem filter_rep {env : REnv} (hd : Dot env) (fuel : Nat) (x : Pkt) (hx : ∀ n, x ≠ .interest n .malformed) (f : Filter) (g : Spec.Filter) (h : RepF env f g) :
    RepF env (f.match env fuel (subjectOf x)).2 g ∧ FAns env x g (f.match env fuel (subjectOf x)).1 := by
  unfold Filter.match
  cases hs : subjectOf x with
  | none =>
    refine ⟨h, by simp, fun _ b hb => ?_⟩
    simp only [Out.ok.injEq] at hb
    subst hb
    simp only [Bool.false_eq_true, false_iff]
    rintro ⟨n, hn, _⟩
    exact subject_none x hx hs n hn
  | some n =>
    have hn := (subject_iff x hx n).1 hs
    simp only
    cases h with
    | relation m r =>
      simp only [Filter.matchName]
      refine ⟨.relation m r, by simp, fun _ b hb => ?_⟩
      simp only [Out.ok.injEq] at hb
      rw [← hb, checkNameRelation_iff]
      exact ⟨fun h => ⟨n, hn, h⟩, fun ⟨n', h1, h2⟩ => Spec.subject_unique h1 hn ▸ h2⟩
    | regex t s hne hw =>
      simp only [Filter.matchName]
      cases hm : (topOf env t).match env fuel n s with
      | none => exact ⟨.regex t s hne hw, by simp, fun _ b hb => by simp at hb⟩
      | some q =>
        obtain ⟨c, s'⟩ := q
        refine ⟨.regex t s' hne hw, by simp, fun hsol b hb => ?_⟩
        simp only [Out.ok.injEq] at hb
        subst hb
        rw [top_iff hd hw (hsol t (by simp [Spec.Filter.patterns])) hm]
        exact ⟨fun h => ⟨n, hn, h⟩, fun ⟨n', h1, h2⟩ => Spec.subject_unique h1 hn ▸ h2⟩

/-- The answer that a result stands for. -/
def ansOf : Out Bool → Option (Option Bool)
  | .hang => none
  | .throws => some none
  | .ok b => some (some b)

theorem kind_rep {env : REnv} (h : StdRegex env) (fuel : Nat) (n kl : List Comp) (k : Kind) (g : Spec.Kind) (hr : RepK env k g) :
    RepK env (k.checkNames env fuel n kl).2 g ∧
    ((∀ t ∈ g.patterns, t.pat.Solid env) → ∀ a, ansOf (k.checkNames env fuel n kl).1 = some a → Spec.Answer env n kl g a) := by
  cases hr with
  | plain =>
    refine ⟨.plain, fun _ a ha => ?_⟩
    simp only [Kind.checkNames, ansOf, Option.some.injEq] at ha
    subst ha
    exact .plain
  | relation m r =>
    simp only [Kind.checkNames]
    cases he : extractIdentity kl with
    | none =>
      refine ⟨.relation m r, fun _ a ha => ?_⟩
      simp only [ansOf, Option.some.injEq] at ha
      subst ha
      exact .noIdentity m r ((extractIdentity_none kl).1 he)
    | some id =>
      refine ⟨.relation m r, fun _ a ha => ?_⟩
      simp only [ansOf, Option.some.injEq] at ha
      subst ha
      exact .relation m r id _ ((extractIdentity_iff _ _).1 he) (checkNameRelation_iff r m id)
  | regex t s hne hw =>
    simp only [Kind.checkNames]
    cases hm : (topOf env t).match env fuel kl s with
    | none => exact ⟨.regex t s hne hw, fun _ a ha => by simp [ansOf] at ha⟩
    | some q =>
      obtain ⟨c, s'⟩ := q
      refine ⟨.regex t s' hne hw, fun hsol a ha => ?_⟩
      simp only [ansOf, Option.some.injEq] at ha
      subst ha
      exact .regex t c (top_iff h.dot hw (hsol t (by simp [Spec.Kind.patterns])) hm)
  | hyper p pe k ke r s s' n1 w1 n2 w2 =>
    simp only [Kind.checkNames]
    cases hp : (topOf env p).match env fuel n s with
    | none => exact ⟨.hyper p pe k ke r s s' n1 w1 n2 w2, fun _ a ha => by simp [ansOf] at ha⟩
    | some q =>
      obtain ⟨c, t⟩ := q
      cases c with
      | false =>
        refine ⟨.hyper p pe k ke r t s' n1 w1 n2 w2, fun hsol a ha => ?_⟩
        simp only [ansOf, Option.some.injEq] at ha
        subst ha
        exact .noMatchP p pe k ke r (fun hl => by
          have := (top_iff h.dot w1 (hsol p (by simp [Spec.Kind.patterns])) hp).2 hl; simp at this)
      | true =>
        simp only
        cases hk : (topOf env k).match env fuel kl s' with
        | none => exact ⟨.hyper p pe k ke r t s' n1 w1 n2 w2, fun _ a ha => by simp [ansOf] at ha⟩
        | some q =>
          obtain ⟨c, t'⟩ := q
          cases c with
          | false =>
            refine ⟨.hyper p pe k ke r t t' n1 w1 n2 w2, fun hsol a ha => ?_⟩
            simp only [ansOf, Option.some.injEq] at ha
            subst ha
            exact .noMatchK p pe k ke r (fun hl => by
              have := (top_iff h.dot w2 (hsol k (by simp [Spec.Kind.patterns])) hk).2 hl; simp at this)
          | true =>
            simp only
            have ek := expands h.dot w2 n2 hk ke
            have ep := expands h.dot w1 n1 hp pe
            cases h1 : (topOf env k).expand env t' ke with
            | none =>
              refine ⟨.hyper p pe k ke r t t' n1 w1 n2 w2, fun hsol a ha => ?_⟩
              simp only [ansOf, Option.some.injEq] at ha
              subst ha
              rw [h1] at ek
              exact .badTemplate p pe k ke r ((top_iff h.dot w1 (hsol p (by simp [Spec.Kind.patterns])) hp).1 rfl)
                ((top_iff h.dot w2 (hsol k (by simp [Spec.Kind.patterns])) hk).1 rfl) (Or.inl ek)
            | some a1 =>
              simp only
              cases h2 : (topOf env p).expand env t pe with
              | none =>
                refine ⟨.hyper p pe k ke r t t' n1 w1 n2 w2, fun hsol a ha => ?_⟩
                simp only [ansOf, Option.some.injEq] at ha
                subst ha
                rw [h2] at ep
                exact .badTemplate p pe k ke r ((top_iff h.dot w1 (hsol p (by simp [Spec.Kind.patterns])) hp).1 rfl)
                  ((top_iff h.dot w2 (hsol k (by simp [Spec.Kind.patterns])) hk).1 rfl) (Or.inr ep)
              | some a2 =>
                refine ⟨.hyper p pe k ke r t t' n1 w1 n2 w2, fun hsol a ha => ?_⟩
                simp only [ansOf, Option.some.injEq] at ha
                subst ha
                rw [h1] at ek
                rw [h2] at ep
                exact .hyper p pe k ke r a1 a2 _ ((top_iff h.dot w1 (hsol p (by simp [Spec.Kind.patterns])) hp).1 rfl)
                  ((top_iff h.dot w2 (hsol k (by simp [Spec.Kind.patterns])) hk).1 rfl) ek ep (checkNameRelation_iff r a1 a2)
  | hierarchical s s' =>
    simp only [Kind.checkNames]
    cases hp : (topOf env hierPTop).match env fuel n s with
    | none => exact ⟨.hierarchical s s', fun _ a ha => by simp [ansOf] at ha⟩
    | some q =>
      obtain ⟨c, t⟩ := q
      obtain ⟨rfl, e1⟩ := hierP_match h fuel n s t c hp
      simp only
      cases hk : (topOf env hierKTop).match env fuel kl s' with
      | none => exact ⟨.hierarchical t s', fun _ a ha => by simp [ansOf] at ha⟩
      | some q =>
        obtain ⟨c, t'⟩ := q
        obtain ⟨k1, k2⟩ := hierK_match h fuel kl s' t' c hk
        cases c with
        | false =>
          refine ⟨.hierarchical t t', fun _ a ha => ?_⟩
          simp only [ansOf, Option.some.injEq] at ha
          subst ha
          exact .hierarchical false (by simp only [Bool.false_eq_true, false_iff]; rintro ⟨id, h1, _⟩; exact k2 rfl id h1)
        | true =>
          obtain ⟨id, i1, i2⟩ := k1 rfl
          simp only [i2, e1]
          refine ⟨.hierarchical t t', fun _ a ha => ?_⟩
          simp only [ansOf, Option.some.injEq] at ha
          subst ha
          refine .hierarchical _ ?_
          rw [checkNameRelation_iff]
          exact ⟨fun h => ⟨id, i1, h⟩, fun ⟨id', h1, h2⟩ => hierIdentity_unique h1 i1 ▸ h2⟩

/-- What a checker may answer. -/
def CAns (env : REnv) (x : Pkt) (info : SigInfo) (kl : List Comp) (c : Spec.Checker) (o : Out Bool) : Prop :=
  (∀ t ∈ c.kind.patterns, t.pat.Solid env) → ∀ a, ansOf o = some a → c.Answers env x info kl a

theorem checker_rep {env : REnv} (h : StdRegex env) (fuel : Nat) (x : Pkt) (hx : ∀ n, x ≠ .interest n .malformed) (info : SigInfo) (kl : List Comp)
    (c : Checker) (d : Spec.Checker) (hr : RepC env c d) :
    RepC env (c.check env fuel info.type (subjectOf x) kl).2 d ∧ CAns env x info kl d (c.check env fuel info.type (subjectOf x) kl).1 := by
  obtain ⟨h1, h2⟩ := hr
  unfold Checker.check CAns Spec.Checker.Answers
  rw [h1]
  by_cases ht : info.type = some d.sigType
  · rw [if_neg (by simp [ht])]
    simp only [if_pos ht]
    cases hs : subjectOf x with
    | none =>
      refine ⟨⟨h1, h2⟩, fun _ a ha => ?_⟩
      simp only [ansOf, Option.some.injEq] at ha
      exact Or.inr ⟨subject_none x hx hs, ha.symm⟩
    | some n =>
      obtain ⟨k1, k2⟩ := kind_rep h fuel n kl _ _ h2
      exact ⟨⟨rfl, k1⟩, fun hsol a ha => Or.inl ⟨n, (subject_iff x hx n).1 hs, k2 hsol a ha⟩⟩
  · rw [if_pos ht]
    refine ⟨⟨h1, h2⟩, fun _ a ha => ?_⟩
    simp only [ansOf, Option.some.injEq] at ha
    rw [if_neg ht]
    exact ha.symm

theorem rep_nil {α β : Type} {R : α → β → Prop} {as : List α} {bs : List β} (h : Spec.All R as bs) : as = [] ↔ bs = [] := by
  cases h <;> simp

theorem rule_match {env : REnv} (h : StdRegex env) (fuel : Nat) (x : Pkt) (hx : ∀ n, x ≠ .interest n .malformed) (r : Rule) (q : Spec.Rule) (hr : RepR env r q) :
    RepR env (r.match env fuel (subjectOf x)).2 q ∧ (r.match env fuel (subjectOf x)).1 ≠ .throws ∧
    ((∀ t ∈ q.patterns, t.pat.Solid env) → ∀ b, (r.match env fuel (subjectOf x)).1 = .ok b → (b = true ↔ q.Captures env x)) := by
  unfold Rule.match
  split
  · rename_i hn
    refine ⟨hr, by simp, fun _ b hb => ?_⟩
    simp only [Out.ok.injEq] at hb
    subst hb
    simp only [true_iff]
    exact Or.inl ((rep_nil hr.1).1 hn)
  · rename_i hn
    obtain ⟨f1, f2, f3⟩ := firstYes_rep (fun f g hf => filter_rep h.dot fuel x hx f g hf) hr.1
    refine ⟨⟨f1, hr.2⟩, ?_, fun hsol b hb => ?_⟩
    · intro e
      obtain ⟨pre, g, post, _, _, h2⟩ := f3 (by rw [e]; simp)
      exact h2.1 e
    · have hsol' : ∀ g ∈ q.filters, ∀ t ∈ g.patterns, t.pat.Solid env := fun g hg t ht =>
        hsol t (List.mem_append_left _ (List.mem_flatMap.2 ⟨g, hg, ht⟩))
      simp only at hb
      cases b with
      | false =>
        simp only [Bool.false_eq_true, false_iff]
        rintro (h0 | ⟨g, hg, hh⟩)
        · exact hn ((rep_nil hr.1).2 h0)
        · have := ((f2 hb g hg).2 (hsol' g hg) false rfl).2 hh
          simp at this
      | true =>
        simp only [true_iff]
        obtain ⟨pre, g, post, e, _, h2⟩ := f3 (by rw [hb]; simp)
        have hg : g ∈ q.filters := by rw [e]; simp
        exact Or.inr ⟨g, hg, (h2.2 (hsol' g hg) true hb).1 rfl⟩

theorem rule_check {env : REnv} (h : StdRegex env) (fuel : Nat) (x : Pkt) (hx : ∀ n, x ≠ .interest n .malformed) (info : SigInfo) (kl : List Comp)
    (r : Rule) (q : Spec.Rule) (hr : RepR env r q) :
    RepR env (r.check env fuel info.type (subjectOf x) kl).2 q ∧
    ((∀ t ∈ q.patterns, t.pat.Solid env) →
      ((r.check env fuel info.type (subjectOf x) kl).1 = .ok true → q.Verdict env x info kl .allow) ∧
      ((r.check env fuel info.type (subjectOf x) kl).1 = .ok false → q.Verdict env x info kl .refuse) ∧
      ((r.check env fuel info.type (subjectOf x) kl).1 = .throws → q.Verdict env x info kl .exception)) := by
  unfold Rule.check
  obtain ⟨f1, f2, f3⟩ := firstYes_rep (fun f g hf => checker_rep h fuel x hx info kl f g hf) hr.2
  refine ⟨⟨hr.1, f1⟩, fun hsol => ?_⟩
  have hsol' : ∀ g ∈ q.checkers, ∀ t ∈ g.kind.patterns, t.pat.Solid env := fun g hg t ht =>
    hsol t (List.mem_append_right _ (List.mem_flatMap.2 ⟨g, hg, ht⟩))
  refine ⟨fun e => ?_, fun e => ?_, fun e => ?_⟩
  · obtain ⟨pre, c, post, e', h1, h2⟩ := f3 (by simp only at e; rw [e]; simp)
    simp only at e
    rw [e] at h2
    exact .allow pre c post e' (fun d hd => h1 d hd (hsol' d (by rw [e']; simp [hd])) _ rfl) (h2 (hsol' c (by rw [e']; simp)) _ rfl)
  · exact .refuse fun c hc => f2 e c hc (hsol' c hc) _ rfl
  · obtain ⟨pre, c, post, e', h1, h2⟩ := f3 (by simp only at e; rw [e]; simp)
    simp only at e
    rw [e] at h2
    exact .exception pre c post e' (fun d hd => h1 d hd (hsol' d (by rw [e']; simp [hd])) _ rfl) (h2 (hsol' c (by rw [e']; simp)) _ rfl)

theorem decides_cons {env : REnv} {x : Pkt} {info : SigInfo} {kl : List Comp} {q : Spec.Rule} {qs : List Spec.Rule} {v : Spec.Verdict}
    (h : ¬ q.Captures env x) (hd : Spec.Decides env x info kl qs v) : Spec.Decides env x info kl (q :: qs) v := by
  cases hd with
  | rule pre r post v e h1 h2 h3 =>
    subst e
    refine .rule (q :: pre) r post v rfl (fun p hp => ?_) h2 h3
    rcases List.mem_cons.1 hp with rfl | hp
    · exact h
    · exact h1 p hp
  | none h1 =>
    refine .none fun p hp => ?_
    rcases List.mem_cons.1 hp with rfl | hp
    · exact h
    · exact h1 p hp

theorem decide_rep {env : REnv} (h : StdRegex env) (fuel : Nat) (x : Pkt) (hx : ∀ n, x ≠ .interest n .malformed) (info : SigInfo) (kl : List Comp)
    {rs : List Rule} {qs : List Spec.Rule} (hr : Spec.All (RepR env) rs qs) :
    Spec.All (RepR env) (decide env fuel info.type (subjectOf x) kl rs).2 qs ∧
    ((∀ q ∈ qs, ∀ t ∈ q.patterns, t.pat.Solid env) → (decide env fuel info.type (subjectOf x) kl rs).1 ≠ .hang →
      ∃ v, Spec.Gives kl (decide env fuel info.type (subjectOf x) kl rs).1 v ∧ Spec.Decides env x info kl qs v) := by
  induction hr with
  | nil => exact ⟨.nil, fun _ _ => ⟨.refuse, .refuse, .none (by simp)⟩⟩
  | @cons r q rs qs h1 h2 ih =>
    obtain ⟨m1, m2, m3⟩ := rule_match h fuel x hx r q h1
    unfold decide
    split
    · rename_i r' hm
      rw [hm] at m1 m3
      refine ⟨.cons m1 ih.1, fun hsol hne => ?_⟩
      obtain ⟨v, v1, v2⟩ := ih.2 (fun q hq => hsol q (List.mem_cons_of_mem _ hq)) hne
      exact ⟨v, v1, decides_cons (fun hc => by have := (m3 (hsol q (by simp)) false rfl).2 hc; simp at this) v2⟩
    · rename_i r' hm
      rw [hm] at m1 m3
      obtain ⟨c1, c2⟩ := rule_check h fuel x hx info kl r' q m1
      have cap : (∀ q' ∈ q :: qs, ∀ t ∈ q'.patterns, t.pat.Solid env) → q.Captures env x := fun hsol => (m3 (hsol q (by simp)) true rfl).1 rfl
      have fin : ∀ v, (∀ q' ∈ q :: qs, ∀ t ∈ q'.patterns, t.pat.Solid env) → q.Verdict env x info kl v → Spec.Decides env x info kl (q :: qs) v :=
        fun v hsol hv => .rule [] q qs v rfl (by simp) (cap hsol) hv
      split
      · rename_i r'' hc
        rw [hc] at c1 c2
        exact ⟨.cons c1 h2, fun hsol _ => ⟨.allow, .allow, fin _ hsol ((c2 (hsol q (by simp))).1 rfl)⟩⟩
      · rename_i r'' hc
        rw [hc] at c1 c2
        exact ⟨.cons c1 h2, fun hsol _ => ⟨.refuse, .refuse, fin _ hsol ((c2 (hsol q (by simp))).2.1 rfl)⟩⟩
      · rename_i r'' hc
        rw [hc] at c1 c2
        exact ⟨.cons c1 h2, fun hsol _ => ⟨.exception, .exception, fin _ hsol ((c2 (hsol q (by simp))).2.2 rfl)⟩⟩
      · rename_i r'' hc
        rw [hc] at c1
        exact ⟨.cons c1 h2, fun _ hne => absurd rfl hne⟩
    · rename_i r' hm
      rw [hm] at m2
      exact absurd rfl m2
    · rename_i r' hm
      rw [hm] at m1
      exact ⟨.cons m1 h2, fun _ hne => absurd rfl hne⟩

end Ndn.Config
