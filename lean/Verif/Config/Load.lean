import Verif.Config.Hier
import Verif.Regex.Props
/-
Reading a configuration: what is read is what the property tree says.
-/
namespace Ndn.Config
open Ndn.Name Ndn.Packet
open Ndn.Regex (Result topOf Dot)

/-- The parts of a policy made for what a configuration says. -/
def toF (env : REnv) : Spec.Filter → Filter
  | .relation n r => .relation n r
  | .regex t => .regex (topOf env t) Regex.TS.init

def toK (env : REnv) : Spec.Kind → Kind
  | .plain => .plain
  | .relation n r => .relation n r
  | .regex t => .regex (topOf env t) Regex.TS.init
  | .hyper p pe k ke r => .hyper (topOf env p) pe (topOf env k) ke r Regex.TS.init Regex.TS.init
  | .hierarchical => .hyper (topOf env hierPTop) hierExpand (topOf env hierKTop) hierExpand .isPrefixOf Regex.TS.init Regex.TS.init

def toC (env : REnv) (c : Spec.Checker) : Checker := ⟨c.sigType, toK env c.kind⟩

def toR (env : REnv) (r : Spec.Rule) : Rule := ⟨r.filters.map (toF env), r.checkers.map (toC env)⟩

theorem bind_ok {β γ : Type} {r : Result β} {f : β → Result γ} {c : γ} : bind r f = .ok c ↔ ∃ b, r = .ok b ∧ f b = .ok c := by
  cases r <;> simp [bind]

theorem need_ok {β : Type} {o : Option β} {b : β} : need o = .ok b ↔ o = some b := by
  cases o <;> simp [need]

theorem finished_ok {β : Type} {b c : β} {l : List (Bytes × Sec)} : finished b l = .ok c ↔ l = [] ∧ b = c := by
  cases l <;> simp [finished]

theorem expect_ok {w : Bytes} (h : w.map lower = w) {l : List (Bytes × Sec)} {x : Sec × List (Bytes × Sec)} :
    expect w l = .ok x ↔ ∃ k, l = (k, x.1) :: x.2 ∧ Spec.Is w k := by
  cases l with
  | nil => simp [expect]
  | cons a l =>
    obtain ⟨k, s⟩ := a
    obtain ⟨x1, x2⟩ := x
    simp only [expect]
    split
    · rename_i hk
      rw [iequals_iff h] at hk
      simp only [Result.ok.injEq, Prod.mk.injEq, List.cons.injEq]
      constructor
      · rintro ⟨rfl, rfl⟩; exact ⟨k, ⟨⟨rfl, rfl⟩, rfl⟩, hk⟩
      · rintro ⟨k', ⟨⟨_, e1⟩, e2⟩, _⟩; exact ⟨e1, e2⟩
    · rename_i hk
      rw [iequals_iff h] at hk
      simp only [reduceCtorEq, Prod.mk.injEq, List.cons.injEq, false_iff]
      rintro ⟨k', ⟨⟨rfl, _⟩, _⟩, h'⟩
      exact hk h'

theorem compile_ok {env : REnv} (hd : Dot env) {s : Bytes} {t : Regex.Top} :
    Regex.compileTop env s = .ok t ↔ ∃ p, Spec.Writes env s p ∧ t = topOf env p := by
  constructor
  · intro h
    obtain ⟨p, h1, h2, h3⟩ := Regex.compileTop_ok h
    refine ⟨p, ⟨h2, h3, h1⟩, ?_⟩
    rw [h2, Regex.compileTop_print hd h1 (h2 ▸ h3)] at h
    simp only [Result.ok.injEq] at h
    exact h.symm
  · rintro ⟨p, ⟨rfl, h2, h3⟩, rfl⟩
    exact Regex.compileTop_print hd h3 h2

theorem is_disj {w w' k : Bytes} (h : Spec.Is w k) (hne : w ≠ w') : ¬ Spec.Is w' k := fun h' => hne (h.symm.trans h')

theorem createFilter_ok {env : REnv} (hd : Dot env) (s : Sec) (f : Filter) :
    createFilter env s = .ok f ↔ ∃ g, Spec.SaysFilter env s.kids g ∧ f = toF env g := by
  unfold createFilter
  rw [bind_ok]
  constructor
  · rintro ⟨⟨ty, rest⟩, h1, h⟩
    obtain ⟨k1, e1, i1⟩ := (expect_ok (by decide)).1 h1
    simp only at e1 h
    split at h
    · rename_i hn
      rw [iequals_iff (by decide)] at hn
      split at h
      · simp at h
      · rename_i k v rest'
        split at h
        · rename_i hk
          rw [iequals_iff (by decide)] at hk
          simp only [bind_ok, need_ok, finished_ok] at h
          obtain ⟨n, hn', ⟨rel, rest''⟩, h2, r, hr, h3, h4⟩ := h
          obtain ⟨k3, e3, i3⟩ := (expect_ok (by decide)).1 h2
          simp only at e3 hr h3
          subst h3 e3
          exact ⟨.relation n r, e1 ▸ .relation k1 k k3 ty v rel n r i1 hn hk hn' i3 ((relationOf_iff _ _).1 hr), h4.symm⟩
        · split at h
          · rename_i hk
            rw [iequals_iff (by decide)] at hk
            simp only [bind_ok, finished_ok, Result.ok.injEq] at h
            obtain ⟨_, ⟨h3, _⟩, t, ht, h4⟩ := h
            obtain ⟨p, hp, rfl⟩ := (compile_ok hd).1 ht
            subst h3
            exact ⟨.regex p, e1 ▸ .regex k1 k ty v p i1 hn hk hp, h4.symm⟩
          · simp at h
    · simp at h
  · rintro ⟨g, hg, rfl⟩
    generalize hk : s.kids = kids at hg
    cases hg with
    | relation k1 k2 k3 s1 s2 s3 n r a1 a2 a3 a4 a5 a6 =>
      refine ⟨(s1, [(k2, s2), (k3, s3)]), (expect_ok (by decide)).2 ⟨k1, rfl, a1⟩, ?_⟩
      simp only
      rw [if_pos ((iequals_iff (by decide) _).2 a2), if_pos ((iequals_iff (by decide) _).2 a3)]
      simp only [bind_ok, need_ok, finished_ok]
      exact ⟨n, a4, (s3, []), (expect_ok (by decide)).2 ⟨k3, rfl, a5⟩, r, (relationOf_iff _ _).2 a6, rfl, rfl⟩
    | regex k1 k2 s1 s2 t a1 a2 a3 a4 =>
      refine ⟨(s1, [(k2, s2)]), (expect_ok (by decide)).2 ⟨k1, rfl, a1⟩, ?_⟩
      simp only
      rw [if_pos ((iequals_iff (by decide) _).2 a2), if_neg (fun h => is_disj a3 (by decide) ((iequals_iff (by decide) _).1 h)),
        if_pos ((iequals_iff (by decide) _).2 a3)]
      simp only [bind_ok, finished_ok, Result.ok.injEq]
      exact ⟨(), ⟨trivial, trivial⟩, _, (compile_ok hd).2 ⟨t, a4, rfl⟩, rfl⟩

theorem makeHyper_ok {env : REnv} (hd : Dot env) {p pe k ke : Bytes} {r : Relation} {x : Kind} :
    makeHyper env p pe k ke r = .ok x ↔ ∃ p' k', Spec.Writes env p p' ∧ Spec.Writes env k k' ∧
      x = .hyper (topOf env p') pe (topOf env k') ke r Regex.TS.init Regex.TS.init := by
  unfold makeHyper
  simp only [bind_ok, compile_ok hd, Result.ok.injEq]
  constructor
  · rintro ⟨_, ⟨p', h1, rfl⟩, _, ⟨k', h2, rfl⟩, rfl⟩; exact ⟨p', k', h1, h2, rfl⟩
  · rintro ⟨p', k', h1, h2, rfl⟩; exact ⟨_, ⟨p', h1, rfl⟩, _, ⟨k', h2, rfl⟩, rfl⟩

theorem createKind_ok {env : REnv} (hd : Dot env) (s : Sec) (f : Kind) :
    createKind env s = .ok f ↔ ∃ g, Spec.SaysKind env s.kids g ∧ f = toK env g := by
  unfold createKind
  rw [bind_ok]
  constructor
  · rintro ⟨⟨ty, rest⟩, h1, h⟩
    obtain ⟨k1, e1, i1⟩ := (expect_ok (by decide)).1 h1
    simp only at e1 h
    split at h
    · rename_i hn
      rw [iequals_iff (by decide)] at hn
      split at h
      · simp at h
      · rename_i k v rest'
        split at h
        · rename_i hk
          rw [iequals_iff (by decide)] at hk
          simp only [bind_ok, need_ok, finished_ok] at h
          obtain ⟨n, hn', ⟨rel, rest''⟩, h2, r, hr, h3, h4⟩ := h
          obtain ⟨k3, e3, i3⟩ := (expect_ok (by decide)).1 h2
          simp only at e3 hr h3
          subst h3 e3
          exact ⟨.relation n r, e1 ▸ .relation k1 k k3 ty v rel n r i1 hn hk hn' i3 ((relationOf_iff _ _).1 hr), h4.symm⟩
        · split at h
          · rename_i hk
            rw [iequals_iff (by decide)] at hk
            simp only [bind_ok, finished_ok, Result.ok.injEq] at h
            obtain ⟨_, ⟨h3, _⟩, t, ht, h4⟩ := h
            obtain ⟨p, hp, rfl⟩ := (compile_ok hd).1 ht
            subst h3
            exact ⟨.regex p, e1 ▸ .regex k1 k ty v p i1 hn hk hp, h4.symm⟩
          · split at h
            · rename_i hk
              rw [iequals_iff (by decide)] at hk
              simp only [bind_ok, need_ok, finished_ok] at h
              obtain ⟨⟨t1, l1⟩, g1, ⟨t2, l2⟩, g2, ⟨t3, l3⟩, g3, ⟨t4, l4⟩, g4, ⟨t5, l5⟩, g5, _, ⟨g6, _⟩, r, g7, g8⟩ := h
              obtain ⟨w1, u1, v1⟩ := (expect_ok (by decide)).1 g1
              obtain ⟨w2, u2, v2⟩ := (expect_ok (by decide)).1 g2
              obtain ⟨w3, u3, v3⟩ := (expect_ok (by decide)).1 g3
              obtain ⟨w4, u4, v4⟩ := (expect_ok (by decide)).1 g4
              obtain ⟨w5, u5, v5⟩ := (expect_ok (by decide)).1 g5
              simp only at u1 u2 u3 u4 u5 g6 g7 g8
              subst g6 u5 u4 u3 u2
              obtain ⟨p, k', hp, hk', rfl⟩ := (makeHyper_ok hd).1 g8
              exact ⟨.hyper p t5.data k' t2.data r, e1 ▸ .hyper k1 k w1 w2 w3 w4 w5 ty v t1 t2 t3 t4 t5 rest' p k' r i1 hn hk u1 v1 v2 v3 v4 v5
                hk' ((relationOf_iff _ _).1 g7) hp, rfl⟩
            · simp at h
    · simp at h
  · rintro ⟨g, hg, rfl⟩
    generalize hk : s.kids = kids at hg
    cases hg with
    | relation k1 k2 k3 s1 s2 s3 n r a1 a2 a3 a4 a5 a6 =>
      refine ⟨(s1, [(k2, s2), (k3, s3)]), (expect_ok (by decide)).2 ⟨k1, rfl, a1⟩, ?_⟩
      simp only
      rw [if_pos ((iequals_iff (by decide) _).2 a2), if_pos ((iequals_iff (by decide) _).2 a3)]
      simp only [bind_ok, need_ok, finished_ok]
      exact ⟨n, a4, (s3, []), (expect_ok (by decide)).2 ⟨k3, rfl, a5⟩, r, (relationOf_iff _ _).2 a6, rfl, rfl⟩
    | regex k1 k2 s1 s2 t a1 a2 a3 a4 =>
      refine ⟨(s1, [(k2, s2)]), (expect_ok (by decide)).2 ⟨k1, rfl, a1⟩, ?_⟩
      simp only
      rw [if_pos ((iequals_iff (by decide) _).2 a2), if_neg (fun h => is_disj a3 (by decide) ((iequals_iff (by decide) _).1 h)),
        if_pos ((iequals_iff (by decide) _).2 a3)]
      simp only [bind_ok, finished_ok, Result.ok.injEq]
      exact ⟨(), ⟨trivial, trivial⟩, _, (compile_ok hd).2 ⟨t, a4, rfl⟩, rfl⟩
    | hyper k1 k2 h1 h2 h3 h4 h5 s1 s2 t1 t2 t3 t4 t5 rest p k r a1 a2 a3 a4 b1 b2 b3 b4 b5 c1 c2 c3 =>
      refine ⟨(s1, (k2, s2) :: rest), (expect_ok (by decide)).2 ⟨k1, rfl, a1⟩, ?_⟩
      simp only
      rw [if_pos ((iequals_iff (by decide) _).2 a2), if_neg (fun h => is_disj a3 (by decide) ((iequals_iff (by decide) _).1 h)),
        if_neg (fun h => is_disj a3 (by decide) ((iequals_iff (by decide) _).1 h)), if_pos ((iequals_iff (by decide) _).2 a3)]
      simp only [bind_ok, need_ok]
      exact ⟨(t1, _), (expect_ok (by decide)).2 ⟨h1, a4, b1⟩, (t2, _), (expect_ok (by decide)).2 ⟨h2, rfl, b2⟩,
        (t3, _), (expect_ok (by decide)).2 ⟨h3, rfl, b3⟩, (t4, _), (expect_ok (by decide)).2 ⟨h4, rfl, b4⟩,
        (t5, []), (expect_ok (by decide)).2 ⟨h5, rfl, b5⟩, (), finished_ok.2 ⟨rfl, rfl⟩, r, (relationOf_iff _ _).2 c2,
        (makeHyper_ok hd).2 ⟨p, k, c3, c1, rfl⟩⟩

theorem sigTypeOf_ok (s : Bytes) (t : Nat) : sigTypeOf s = some t ↔
    (Spec.Is wRsa s ∧ t = 1) ∨ (Spec.Is wEcdsa s ∧ t = 3) ∨ (Spec.Is wSha s ∧ t = 0) := by
  unfold sigTypeOf
  constructor
  · intro h
    split at h
    · rename_i e; exact Or.inl ⟨(iequals_iff (by decide) _).1 e, by simpa using h.symm⟩
    · split at h
      · rename_i e; exact Or.inr (Or.inl ⟨(iequals_iff (by decide) _).1 e, by simpa using h.symm⟩)
      · split at h
        · rename_i e; exact Or.inr (Or.inr ⟨(iequals_iff (by decide) _).1 e, by simpa using h.symm⟩)
        · simp at h
  · rintro (⟨h, rfl⟩ | ⟨h, rfl⟩ | ⟨h, rfl⟩)
    · rw [if_pos ((iequals_iff (by decide) _).2 h)]
    · rw [if_neg (fun e => is_disj h (by decide) ((iequals_iff (by decide) _).1 e)), if_pos ((iequals_iff (by decide) _).2 h)]
    · rw [if_neg (fun e => is_disj h (by decide) ((iequals_iff (by decide) _).1 e)),
        if_neg (fun e => is_disj h (by decide) ((iequals_iff (by decide) _).1 e)), if_pos ((iequals_iff (by decide) _).2 h)]

theorem saysSig_cases {sig : List (Bytes × Sec)} {t : Nat} (h : Spec.SaysSigType sig t) :
    (sig = [] ∧ t = 3) ∨ ∃ k s, sig = [(k, s)] ∧ Spec.Is wSigType k ∧ sigTypeOf s.data = some t := by
  cases h with
  | default => exact Or.inl ⟨rfl, rfl⟩
  | rsa k s h1 h2 => exact Or.inr ⟨k, s, rfl, h1, (sigTypeOf_ok _ _).2 (Or.inl ⟨h2, rfl⟩)⟩
  | ecdsa k s h1 h2 => exact Or.inr ⟨k, s, rfl, h1, (sigTypeOf_ok _ _).2 (Or.inr (Or.inl ⟨h2, rfl⟩))⟩
  | sha k s h1 h2 => exact Or.inr ⟨k, s, rfl, h1, (sigTypeOf_ok _ _).2 (Or.inr (Or.inr ⟨h2, rfl⟩))⟩

theorem saysSig_of {k : Bytes} {s : Sec} {t : Nat} (h1 : Spec.Is wSigType k) (h2 : sigTypeOf s.data = some t) : Spec.SaysSigType [(k, s)] t := by
  rcases (sigTypeOf_ok _ _).1 h2 with ⟨h, rfl⟩ | ⟨h, rfl⟩ | ⟨h, rfl⟩
  · exact .rsa k s h1 h
  · exact .ecdsa k s h1 h
  · exact .sha k s h1 h

theorem readSigType_ok (l : List (Bytes × Sec)) (t : Nat) (rest : List (Bytes × Sec)) :
    readSigType l = .ok (t, rest) ↔ ∃ sig, l = sig ++ rest ∧ Spec.SaysSigType sig t ∧ (sig = [] → ∀ k s, rest.head? = some (k, s) → ¬ Spec.Is wSigType k) := by
  cases l with
  | nil =>
    simp only [readSigType, Result.ok.injEq, Prod.mk.injEq]
    constructor
    · rintro ⟨rfl, rfl⟩; exact ⟨[], rfl, .default, by simp⟩
    · rintro ⟨sig, h1, h2, _⟩
      obtain ⟨rfl, rfl⟩ := List.append_eq_nil_iff.1 h1.symm
      cases h2; exact ⟨rfl, rfl⟩
  | cons a l =>
    obtain ⟨k, s⟩ := a
    simp only [readSigType]
    split
    · rename_i hk
      rw [iequals_iff (by decide)] at hk
      simp only [bind_ok, need_ok, Result.ok.injEq, Prod.mk.injEq]
      constructor
      · rintro ⟨b, h1, rfl, rfl⟩
        exact ⟨[(k, s)], rfl, saysSig_of hk h1, by simp⟩
      · rintro ⟨sig, h1, h2, h3⟩
        rcases saysSig_cases h2 with ⟨rfl, rfl⟩ | ⟨k', s', rfl, h4, h5⟩
        · rw [List.nil_append] at h1
          exact absurd hk (h3 rfl k s (by rw [← h1]; rfl))
        · simp only [List.cons_append, List.nil_append, List.cons.injEq, Prod.mk.injEq] at h1
          obtain ⟨⟨rfl, rfl⟩, rfl⟩ := h1
          exact ⟨t, h5, rfl, rfl⟩
    · rename_i hk
      rw [iequals_iff (by decide)] at hk
      simp only [Result.ok.injEq, Prod.mk.injEq]
      constructor
      · rintro ⟨rfl, rfl⟩
        exact ⟨[], rfl, .default, by intro _ k' s' e; simp at e; rw [← e.1]; exact hk⟩
      · rintro ⟨sig, h1, h2, h3⟩
        rcases saysSig_cases h2 with ⟨rfl, rfl⟩ | ⟨k', s', rfl, h4, h5⟩
        · exact ⟨rfl, h1⟩
        · simp only [List.cons_append, List.nil_append, List.cons.injEq, Prod.mk.injEq] at h1
          obtain ⟨⟨rfl, rfl⟩, rfl⟩ := h1
          exact absurd h4 hk

theorem hier_writes {env : REnv} (h : StdRegex env) : Spec.Writes env hierP hierPTop ∧ Spec.Writes env hierK hierKTop :=
  ⟨⟨hierP_print.symm, by decide, hierP_wf h⟩, ⟨hierK_print.symm, by decide, hierK_wf h⟩⟩

theorem makeHier {env : REnv} (h : StdRegex env) : makeHyper env hierP hierExpand hierK hierExpand .isPrefixOf = .ok (toK env .hierarchical) :=
  (makeHyper_ok h.dot).2 ⟨hierPTop, hierKTop, (hier_writes h).1, (hier_writes h).2, rfl⟩

theorem createChecker_ok {env : REnv} (h : StdRegex env) (s : Sec) (c : Checker) :
    createChecker env s = .ok c ↔ ∃ g, Spec.SaysChecker env s.kids g ∧ c = toC env g := by
  unfold createChecker
  rw [bind_ok]
  constructor
  · rintro ⟨⟨ty, rest⟩, h1, hx⟩
    obtain ⟨k1, e1, i1⟩ := (expect_ok (by decide)).1 h1
    simp only at e1 hx
    split at hx
    · rename_i hn
      rw [iequals_iff (by decide)] at hn
      rw [bind_ok] at hx
      obtain ⟨⟨t, rest'⟩, h2, hx⟩ := hx
      obtain ⟨sig, e2, h3, h4⟩ := (readSigType_ok _ _ _).1 h2
      simp only at hx
      subst e2
      split at hx
      · split at hx
        · rename_i ht
          subst ht
          simp only [Result.ok.injEq] at hx
          exact ⟨⟨0, .plain⟩, e1 ▸ .digest k1 ty sig [] i1 hn h3 (by simp), hx.symm⟩
        · simp at hx
      · rename_i k v rest''
        split at hx
        · rename_i hk
          rw [iequals_iff (by decide)] at hk
          simp only [bind_ok, finished_ok] at hx
          obtain ⟨x, h5, rfl, h6⟩ := hx
          obtain ⟨g, h7, rfl⟩ := (createKind_ok h.dot _ _).1 h5
          exact ⟨⟨t, g⟩, e1 ▸ .customized k1 ty sig t k v g i1 hn h3 hk h7, h6.symm⟩
        · rename_i hk
          rw [iequals_iff (by decide)] at hk
          split at hx
          · rename_i ht
            subst ht
            simp only [Result.ok.injEq] at hx
            exact ⟨⟨0, .plain⟩, e1 ▸ .digest k1 ty sig ((k, v) :: rest'') i1 hn h3 (by intro k' s' e; simp at e; rw [← e.1]; exact hk), hx.symm⟩
          · simp at hx
    · split at hx
      · rename_i hn
        rw [iequals_iff (by decide)] at hn
        simp only [bind_ok, finished_ok, makeHier h, Result.ok.injEq] at hx
        obtain ⟨⟨t, rest'⟩, h2, _, ⟨h5, _⟩, _, rfl, h6⟩ := hx
        obtain ⟨sig, e2, h3, h4⟩ := (readSigType_ok _ _ _).1 h2
        simp only at h5
        subst h5
        simp only [List.append_nil] at e2
        subst e2
        exact ⟨⟨t, .hierarchical⟩, e1 ▸ .hierarchical k1 ty rest t i1 hn h3, h6.symm⟩
      · simp at hx
  · rintro ⟨g, hg, rfl⟩
    generalize hk : s.kids = kids at hg
    cases hg with
    | customized k1 s1 sig t k2 s2 x a1 a2 a3 a4 a5 =>
      refine ⟨(s1, sig ++ [(k2, s2)]), (expect_ok (by decide)).2 ⟨k1, rfl, a1⟩, ?_⟩
      simp only
      rw [if_pos ((iequals_iff (by decide) _).2 a2), bind_ok]
      refine ⟨(t, [(k2, s2)]), (readSigType_ok _ _ _).2 ⟨sig, rfl, a3, ?_⟩, ?_⟩
      · intro _ k s e
        simp at e
        rw [← e.1]
        exact is_disj a4 (by decide)
      · simp only
        rw [if_pos ((iequals_iff (by decide) _).2 a4)]
        simp only [bind_ok, finished_ok]
        exact ⟨_, (createKind_ok h.dot _ _).2 ⟨x, a5, rfl⟩, trivial, rfl⟩
    | digest k1 s1 sig rest a1 a2 a3 a4 =>
      refine ⟨(s1, sig ++ rest), (expect_ok (by decide)).2 ⟨k1, rfl, a1⟩, ?_⟩
      simp only
      rw [if_pos ((iequals_iff (by decide) _).2 a2), bind_ok]
      refine ⟨(0, rest), (readSigType_ok _ _ _).2 ⟨sig, rfl, a3, ?_⟩, ?_⟩
      · rintro rfl; cases a3
      · simp only
        split
        · simp [toC, toK]
        · rename_i k v rest'
          rw [if_neg (fun e => a4 k v rfl ((iequals_iff (by decide) _).1 e))]
          simp [toC, toK]
    | hierarchical k1 s1 sig t a1 a2 a3 =>
      refine ⟨(s1, sig), (expect_ok (by decide)).2 ⟨k1, rfl, a1⟩, ?_⟩
      simp only
      rw [if_neg (fun h => is_disj a2 (by decide) ((iequals_iff (by decide) _).1 h)), if_pos ((iequals_iff (by decide) _).2 a2)]
      simp only [bind_ok, finished_ok, makeHier h, Result.ok.injEq]
      refine ⟨(t, []), (readSigType_ok _ _ _).2 ⟨sig, by simp, a3, by simp⟩, (), ⟨rfl, trivial⟩, _, rfl, rfl⟩

theorem readCheckers_ok {env : REnv} (h : StdRegex env) (l : List (Bytes × Sec)) (cs : List Checker) :
    readCheckers env l = .ok cs ↔ ∃ gs, Spec.All (fun s c => Spec.Is wChecker s.1 ∧ Spec.SaysChecker env s.2.kids c) l gs ∧ cs = gs.map (toC env) := by
  induction l generalizing cs with
  | nil =>
    simp only [readCheckers, Result.ok.injEq]
    constructor
    · rintro rfl; exact ⟨[], .nil, rfl⟩
    · rintro ⟨gs, h1, rfl⟩; cases h1; rfl
  | cons a l ih =>
    obtain ⟨k, s⟩ := a
    simp only [readCheckers]
    constructor
    · intro hx
      split at hx
      · rename_i hk
        simp only [bind_ok, createChecker_ok h, ih, Result.ok.injEq] at hx
        obtain ⟨_, ⟨g, h1, rfl⟩, _, ⟨gs, h2, rfl⟩, rfl⟩ := hx
        exact ⟨g :: gs, .cons ⟨(iequals_iff (by decide) _).1 hk, h1⟩ h2, rfl⟩
      · simp at hx
    · rintro ⟨gs, h1, rfl⟩
      cases h1 with
      | @cons _ g _ gs h1 h2 =>
        rw [if_pos ((iequals_iff (by decide) _).2 h1.1)]
        simp only [bind_ok, createChecker_ok h, ih, Result.ok.injEq]
        exact ⟨_, ⟨g, h1.2, rfl⟩, _, ⟨gs, h2, rfl⟩, rfl⟩

theorem readFilters_ok {env : REnv} (h : StdRegex env) (l : List (Bytes × Sec)) (x : List Filter × List Checker) :
    readFilters env l = .ok x ↔ ∃ fs cs gs hs, l = fs ++ cs ∧
      Spec.All (fun s f => Spec.Is wFilter s.1 ∧ Spec.SaysFilter env s.2.kids f) fs gs ∧
      Spec.All (fun s c => Spec.Is wChecker s.1 ∧ Spec.SaysChecker env s.2.kids c) cs hs ∧
      x = (gs.map (toF env), hs.map (toC env)) := by
  induction l generalizing x with
  | nil =>
    simp only [readFilters, Result.ok.injEq]
    constructor
    · rintro rfl; exact ⟨[], [], [], [], rfl, .nil, .nil, rfl⟩
    · rintro ⟨fs, cs, gs, hs, h0, h1, h2, rfl⟩
      obtain ⟨rfl, rfl⟩ := List.append_eq_nil_iff.1 h0.symm
      cases h1; cases h2; rfl
  | cons a l ih =>
    obtain ⟨k, s⟩ := a
    simp only [readFilters]
    constructor
    · intro hx
      split at hx
      · rename_i hk
        simp only [bind_ok, createFilter_ok h.dot, ih, Result.ok.injEq] at hx
        obtain ⟨_, ⟨g, h1, rfl⟩, _, ⟨fs, cs, gs, hs, rfl, h2, h3, rfl⟩, rfl⟩ := hx
        exact ⟨(k, s) :: fs, cs, g :: gs, hs, rfl, .cons ⟨(iequals_iff (by decide) _).1 hk, h1⟩ h2, h3, rfl⟩
      · split at hx
        · simp only [bind_ok, readCheckers_ok h, Result.ok.injEq] at hx
          obtain ⟨_, ⟨hs, h1, rfl⟩, rfl⟩ := hx
          exact ⟨[], (k, s) :: l, [], hs, rfl, .nil, h1, rfl⟩
        · simp at hx
    · rintro ⟨fs, cs, gs, hs, h0, h1, h2, rfl⟩
      cases h1 with
      | nil =>
        rw [List.nil_append] at h0
        subst h0
        have h2' := h2
        cases h2 with
        | @cons _ g _ gs h3 h4 =>
          rw [if_neg (fun e => is_disj h3.1 (by decide) ((iequals_iff (by decide) _).1 e)), if_pos ((iequals_iff (by decide) _).2 h3.1)]
          simp only [bind_ok, readCheckers_ok h, Result.ok.injEq]
          exact ⟨_, ⟨_, h2', rfl⟩, rfl⟩
      | @cons a g as gs h3 h4 =>
        simp only [List.cons_append, List.cons.injEq] at h0
        obtain ⟨rfl, rfl⟩ := h0
        rw [if_pos ((iequals_iff (by decide) _).2 h3.1)]
        simp only [bind_ok, createFilter_ok h.dot, ih, Result.ok.injEq]
        exact ⟨_, ⟨g, h3.2, rfl⟩, _, ⟨as, cs, gs, hs, rfl, h4, h2, rfl⟩, rfl⟩

theorem createRule_ok {env : REnv} (h : StdRegex env) (s : Sec) (i : Bool) (r : Rule) :
    createRule env s = .ok (i, r) ↔ ∃ g, Spec.SaysRule env s.kids i g ∧ r = toR env g := by
  unfold createRule
  constructor
  · intro hx
    simp only [bind_ok] at hx
    obtain ⟨⟨s1, l1⟩, h1, ⟨s2, l2⟩, h2, i', h3, x, h4, hx⟩ := hx
    obtain ⟨k1, e1, i1⟩ := (expect_ok (by decide)).1 h1
    obtain ⟨k2, e2, i2⟩ := (expect_ok (by decide)).1 h2
    simp only at e1 e2 h3 h4
    obtain ⟨fs, cs, gs, hs, rfl, h5, h6, rfl⟩ := (readFilters_ok h _ _).1 h4
    simp only at hx
    split at hx
    · simp at hx
    · rename_i hne
      simp only [Result.ok.injEq, Prod.mk.injEq] at hx
      obtain ⟨rfl, rfl⟩ := hx
      refine ⟨⟨gs, hs⟩, ?_, rfl⟩
      rw [e1, e2]
      refine .mk k1 k2 s1 s2 i' fs cs gs hs i1 i2 ?_ h5 h6 (by rintro rfl; exact hne rfl)
      split at h3
      · rename_i e
        simp only [Result.ok.injEq] at h3
        subst h3
        exact (iequals_iff (by decide) _).1 e
      · split at h3
        · rename_i e
          simp only [Result.ok.injEq] at h3
          subst h3
          exact (iequals_iff (by decide) _).1 e
        · simp at h3
  · rintro ⟨g, hg, rfl⟩
    generalize hk : s.kids = kids at hg
    cases hg with
    | mk k1 k2 s1 s2 _ fs cs gs hs a1 a2 a3 a4 a5 a6 =>
      simp only [bind_ok]
      refine ⟨(s1, (k2, s2) :: (fs ++ cs)), (expect_ok (by decide)).2 ⟨k1, rfl, a1⟩, (s2, fs ++ cs), (expect_ok (by decide)).2 ⟨k2, rfl, a2⟩, i, ?_,
        _, (readFilters_ok h _ _).2 ⟨fs, cs, gs, hs, rfl, a4, a5, rfl⟩, ?_⟩
      · cases i with
        | false => exact if_pos ((iequals_iff (by decide) _).2 a3)
        | true =>
          have a3 : Spec.Is wInterest s2.data := a3
          show (if iequals s2.data wData = true then _ else _) = _
          rw [if_neg (fun e => is_disj a3 (by decide) ((iequals_iff (by decide) _).1 e)), if_pos ((iequals_iff (by decide) _).2 a3)]
      · simp only
        rw [if_neg (by simpa using a6)]
        rfl

/-! ### Anchors -/

theorem digits_some (ds : Bytes) (n : Nat) : digits ds = some n ↔ ds ≠ [] ∧ (∀ c ∈ ds, 48 ≤ c ∧ c ≤ 57) ∧ n = Regex.number ds := by
  unfold digits
  have e : ds.all Regex.isDigit = true ↔ ∀ c ∈ ds, 48 ≤ c ∧ c ≤ 57 := by
    simp [List.all_eq_true, Regex.digit_iff]
  split
  · rename_i h; simp [h.1, eq_comm]; exact fun _ => e.1 h.2
  · rename_i h
    simp only [reduceCtorEq, false_iff]
    rintro ⟨h1, h2, _⟩
    exact h ⟨h1, e.2 h2⟩

theorem toInt32_some (s : Bytes) (n : Int) : toInt32 s = some n ↔ Spec.SaysInt s n := by
  constructor
  · intro h
    unfold toInt32 at h
    split at h
    · rename_i ds
      obtain ⟨m, h1, h2⟩ := Option.bind_eq_some_iff.1 h
      obtain ⟨g1, g2, rfl⟩ := (digits_some _ _).1 h1
      split at h2
      · rename_i hl
        simp only [Option.some.injEq] at h2
        subst h2
        exact .minus ds g1 g2 hl
      · simp at h2
    · rename_i ds
      obtain ⟨m, h1, h2⟩ := Option.bind_eq_some_iff.1 h
      obtain ⟨g1, g2, rfl⟩ := (digits_some _ _).1 h1
      split at h2
      · rename_i hl
        simp only [Option.some.injEq] at h2
        subst h2
        exact .plus ds g1 g2 hl
      · simp at h2
    · obtain ⟨m, h1, h2⟩ := Option.bind_eq_some_iff.1 h
      obtain ⟨g1, g2, rfl⟩ := (digits_some _ _).1 h1
      split at h2
      · rename_i hl
        simp only [Option.some.injEq] at h2
        subst h2
        exact .plain s g1 g2 hl
      · simp at h2
  · intro h
    cases h with
    | plain _ h1 h2 h3 =>
      unfold toInt32
      split
      · exact absurd (h2 45 (by simp)).1 (by decide)
      · exact absurd (h2 43 (by simp)).1 (by decide)
      · rw [(digits_some _ _).2 ⟨h1, h2, rfl⟩, Option.bind_some, if_pos h3]
    | plus ds h1 h2 h3 =>
      simp only [toInt32]
      rw [(digits_some _ _).2 ⟨h1, h2, rfl⟩, Option.bind_some, if_pos h3]
    | minus ds h1 h2 h3 =>
      simp only [toInt32]
      rw [(digits_some _ _).2 ⟨h1, h2, rfl⟩, Option.bind_some, if_pos h3]

theorem refresh_ok (l : List (Bytes × Sec)) (p : Int) : (refreshPeriod l = .ok (p, [])) ↔ Spec.SaysRefresh l p := by
  constructor
  · intro h
    cases l with
    | nil => simp only [refreshPeriod, Result.ok.injEq, Prod.mk.injEq, and_true] at h; subst h; exact .never
    | cons a l =>
      obtain ⟨k, s⟩ := a
      simp only [refreshPeriod] at h
      split at h
      · rename_i hk
        rw [iequals_iff (by decide)] at hk
        split at h
        · simp at h
        · rename_i unit hl
          have hd : s.data = s.data.dropLast ++ [unit] := by
            rcases List.eq_nil_or_concat s.data with e | ⟨m, c, e⟩
            · rw [e] at hl; simp at hl
            · rw [e, List.concat_eq_append] at hl ⊢
              simp at hl ⊢; exact hl
          split at h
          · simp at h
          · rename_i n hn
            rw [toInt32_some] at hn
            split at h
            · simp at h
            · rename_i hneg
              split at h
              · rename_i h0
                subst h0
                simp only [Result.ok.injEq, Prod.mk.injEq] at h
                obtain ⟨rfl, rfl⟩ := h
                exact .default k s _ unit hk hd hn
              · rename_i h0
                have key : ∀ u, Spec.TimeUnit unit u → bind (inNanoseconds n u) (fun p => Result.ok (p, l)) = .ok (p, []) → Spec.SaysRefresh ((k, s) :: l) p := by
                  intro u hu e
                  rw [bind_ok] at e
                  obtain ⟨q, e1, e2⟩ := e
                  simp only [Result.ok.injEq, Prod.mk.injEq] at e2
                  obtain ⟨rfl, rfl⟩ := e2
                  unfold inNanoseconds at e1
                  split at e1
                  · rename_i hle
                    simp only [Result.ok.injEq] at e1
                    subst e1
                    exact .period k s _ unit n u hk hd hn (by omega) hu (by omega)
                  · simp at e1
                split at h
                · rename_i e; subst e; exact key _ .hours h
                · split at h
                  · rename_i e; subst e; exact key _ .minutes h
                  · split at h
                    · rename_i e; subst e; exact key _ .seconds h
                    · simp at h
      · simp at h
  · intro h
    cases h with
    | never => rfl
    | default k s num unit h1 h2 h3 =>
      simp only [refreshPeriod]
      rw [if_pos ((iequals_iff (by decide) _).2 h1), h2]
      simp only [List.getLast?_append, List.getLast?_singleton, Option.some_or, List.dropLast_append_cons, List.dropLast_singleton, List.append_nil]
      rw [(toInt32_some _ _).2 h3]
      simp
    | period k s num unit n u h1 h2 h3 h4 h5 h6 =>
      simp only [refreshPeriod]
      rw [if_pos ((iequals_iff (by decide) _).2 h1), h2]
      simp only [List.getLast?_append, List.getLast?_singleton, Option.some_or, List.dropLast_append_cons, List.dropLast_singleton, List.append_nil]
      rw [(toInt32_some _ _).2 h3]
      simp only
      rw [if_neg (by omega), if_neg (by omega)]
      have hk : inNanoseconds n u = .ok (n * u) := by unfold inNanoseconds; rw [if_pos (by omega)]
      cases h5
      · rw [if_pos rfl, hk]; rfl
      · rw [if_neg (by decide), if_pos rfl, hk]; rfl
      · rw [if_neg (by decide), if_neg (by decide), if_pos rfl, hk]; rfl

theorem refresh_rest {l rest : List (Bytes × Sec)} {p : Int} (h : refreshPeriod l = .ok (p, rest)) (hr : rest = []) : Spec.SaysRefresh l p :=
  (refresh_ok l p).1 (hr ▸ h)

theorem readPath_ok {w : Bytes} (hw : w.map lower = w) (isDir : Bool) (l : List (Bytes × Sec)) (a : AnchorSec) :
    readPath w isDir l = .ok a ↔ ∃ k s rest p, l = (k, s) :: rest ∧ Spec.Is w k ∧ Spec.SaysRefresh rest p ∧ a = .group ⟨s.data, some (p, isDir)⟩ := by
  unfold readPath
  simp only [bind_ok, finished_ok]
  constructor
  · rintro ⟨⟨s, rest⟩, h1, ⟨p, rest'⟩, h2, h3, h4⟩
    obtain ⟨k, e, i⟩ := (expect_ok hw).1 h1
    exact ⟨k, s, rest, p, e, i, refresh_rest h2 h3, h4.symm⟩
  · rintro ⟨k, s, rest, p, e, i, h2, rfl⟩
    exact ⟨(s, rest), (expect_ok hw).2 ⟨k, e, i⟩, (p, []), (refresh_ok _ _).2 h2, rfl, rfl⟩

theorem readAnchor_ok (isCert : Bytes → Bool) (s : Sec) (a : AnchorSec) : readAnchor isCert s = .ok a ↔ Spec.SaysAnchor isCert s.kids a := by
  unfold readAnchor
  rw [bind_ok]
  constructor
  · rintro ⟨⟨ty, rest⟩, h1, h⟩
    obtain ⟨k1, e1, i1⟩ := (expect_ok (by decide)).1 h1
    simp only at e1 h
    rw [e1]
    split at h
    · rename_i hn
      obtain ⟨k, v, r, p, rfl, h2, h3, rfl⟩ := (readPath_ok (by decide) _ _ _).1 h
      exact .file k1 k ty v r p i1 ((iequals_iff (by decide) _).1 hn) h2 h3
    · split at h
      · rename_i hn
        simp only [bind_ok, finished_ok] at h
        obtain ⟨⟨x, rest'⟩, h2, _, ⟨h3, _⟩, h4⟩ := h
        obtain ⟨k2, e2, i2⟩ := (expect_ok (by decide)).1 h2
        simp only at e2 h3 h4
        subst h3 e2
        split at h4
        · rename_i hc
          simp only [Result.ok.injEq] at h4
          subst h4
          exact .base64 k1 k2 ty x i1 ((iequals_iff (by decide) _).1 hn) i2 hc
        · simp at h4
      · split at h
        · rename_i hn
          obtain ⟨k, v, r, p, rfl, h2, h3, rfl⟩ := (readPath_ok (by decide) _ _ _).1 h
          exact .dir k1 k ty v r p i1 ((iequals_iff (by decide) _).1 hn) h2 h3
        · split at h
          · rename_i hn
            simp only [Result.ok.injEq] at h
            subst h
            exact .any k1 ty rest i1 ((iequals_iff (by decide) _).1 hn)
          · simp at h
  · intro hg
    generalize hk : s.kids = kids at hg
    cases hg with
    | file k1 k2 s1 s2 rest p a1 a2 a3 a4 =>
      refine ⟨(s1, (k2, s2) :: rest), (expect_ok (by decide)).2 ⟨k1, rfl, a1⟩, ?_⟩
      simp only
      rw [if_pos ((iequals_iff (by decide) _).2 a2)]
      exact (readPath_ok (by decide) _ _ _).2 ⟨k2, s2, rest, p, rfl, a3, a4, rfl⟩
    | dir k1 k2 s1 s2 rest p a1 a2 a3 a4 =>
      refine ⟨(s1, (k2, s2) :: rest), (expect_ok (by decide)).2 ⟨k1, rfl, a1⟩, ?_⟩
      simp only
      rw [if_neg (fun e => is_disj a2 (by decide) ((iequals_iff (by decide) _).1 e)),
        if_neg (fun e => is_disj a2 (by decide) ((iequals_iff (by decide) _).1 e)), if_pos ((iequals_iff (by decide) _).2 a2)]
      exact (readPath_ok (by decide) _ _ _).2 ⟨k2, s2, rest, p, rfl, a3, a4, rfl⟩
    | base64 k1 k2 s1 s2 a1 a2 a3 a4 =>
      refine ⟨(s1, [(k2, s2)]), (expect_ok (by decide)).2 ⟨k1, rfl, a1⟩, ?_⟩
      simp only
      rw [if_neg (fun e => is_disj a2 (by decide) ((iequals_iff (by decide) _).1 e)), if_pos ((iequals_iff (by decide) _).2 a2)]
      simp only [bind_ok, finished_ok]
      exact ⟨(s2, []), (expect_ok (by decide)).2 ⟨k2, rfl, a3⟩, (), ⟨rfl, trivial⟩, if_pos a4⟩
    | any k1 s1 rest a1 a2 =>
      refine ⟨(s1, rest), (expect_ok (by decide)).2 ⟨k1, rfl, a1⟩, ?_⟩
      simp only
      rw [if_neg (fun e => is_disj a2 (by decide) ((iequals_iff (by decide) _).1 e)),
        if_neg (fun e => is_disj a2 (by decide) ((iequals_iff (by decide) _).1 e)),
        if_neg (fun e => is_disj a2 (by decide) ((iequals_iff (by decide) _).1 e)), if_pos ((iequals_iff (by decide) _).2 a2)]

/-! ### The configuration -/

/-- Sections added to a policy. -/
def addSects (env : REnv) (p : Policy) (xs : List Spec.Sect) : Policy :=
  { p with bypass := p.bypass || xs.any (fun x => match x with | .anchor .any => true | _ => false)
           dataRules := p.dataRules ++ (Spec.rules false xs).map (toR env)
           interestRules := p.interestRules ++ (Spec.rules true xs).map (toR env)
           anchors := p.anchors ++ Spec.groups xs }

theorem canLoad_iff (gs : List Anchor) (a : Anchor) : canLoad gs a = true ↔ ∀ g ∈ gs, g.id = a.id → g.fromPath = none ∧ a.fromPath = none := by
  unfold canLoad
  cases h : a.fromPath with
  | none =>
    simp only [List.all_eq_true, Bool.or_eq_true, bne_iff_ne, ne_eq, Option.isNone_iff_eq_none, and_true]
    exact forall_congr' fun g => forall_congr' fun _ => ⟨fun h e => h.resolve_left (fun n => n e), fun h => by
      by_cases e : g.id = a.id
      · exact Or.inr (h e)
      · exact Or.inl e⟩
  | some x =>
    simp only [List.all_eq_true, bne_iff_ne, ne_eq, reduceCtorEq, and_false, imp_false]

theorem loadSection_ok {env : REnv} (h : StdRegex env) (isCert : Bytes → Bool) (p p' : Policy) (k : Bytes) (s : Sec) :
    loadSection env isCert p k s = .ok p' ↔ ∃ x, Spec.SaysSect env isCert (k, s) x ∧
      (∀ a ∈ Spec.groups [x], canLoad p.anchors a = true) ∧ p' = addSects env p [x] := by
  unfold loadSection
  constructor
  · intro hx
    split at hx
    · rename_i hk
      rw [iequals_iff (by decide)] at hk
      rw [bind_ok] at hx
      obtain ⟨⟨i, r⟩, h1, h2⟩ := hx
      obtain ⟨g, h3, rfl⟩ := (createRule_ok h _ _ _).1 h1
      simp only [Result.ok.injEq] at h2
      refine ⟨.rule i g, .rule k s i g hk h3, by simp [Spec.groups], ?_⟩
      rw [← h2]
      cases i <;> simp [addSects, Spec.rules, Spec.groups]
    · split at hx
      · rename_i hk
        rw [iequals_iff (by decide)] at hk
        rw [bind_ok] at hx
        obtain ⟨a, h1, h2⟩ := hx
        rw [readAnchor_ok] at h1
        refine ⟨.anchor a, .anchor k s a hk h1, ?_⟩
        cases a with
        | any =>
          simp only [Result.ok.injEq] at h2
          subst h2
          exact ⟨by simp [Spec.groups], by simp [addSects, Spec.rules, Spec.groups]⟩
        | group a =>
          simp only at h2
          split at h2
          · rename_i hc
            simp only [Result.ok.injEq] at h2
            subst h2
            exact ⟨by simpa [Spec.groups] using hc, by simp [addSects, Spec.rules, Spec.groups]⟩
          · simp at h2
      · simp at hx
  · rintro ⟨x, hx, hc, rfl⟩
    cases hx with
    | rule _ _ i r hk hr =>
      rw [if_pos ((iequals_iff (by decide) _).2 hk), bind_ok]
      refine ⟨(i, toR env r), (createRule_ok h _ _ _).2 ⟨r, hr, rfl⟩, ?_⟩
      cases i <;> simp [addSects, Spec.rules, Spec.groups]
    | anchor _ _ a hk ha =>
      rw [if_neg (fun e => is_disj hk (by decide) ((iequals_iff (by decide) _).1 e)), if_pos ((iequals_iff (by decide) _).2 hk), bind_ok]
      refine ⟨a, (readAnchor_ok _ _ _).2 ha, ?_⟩
      cases a with
      | any => simp [addSects, Spec.rules, Spec.groups]
      | group a =>
        simp only
        rw [if_pos (hc a (by simp [Spec.groups]))]
        simp [addSects, Spec.rules, Spec.groups]

theorem rules_cons (b : Bool) (x : Spec.Sect) (xs : List Spec.Sect) : Spec.rules b (x :: xs) = Spec.rules b [x] ++ Spec.rules b xs := by
  cases x with
  | rule i r => simp only [Spec.rules]; split <;> simp
  | anchor a => simp [Spec.rules]

theorem groups_cons (x : Spec.Sect) (xs : List Spec.Sect) : Spec.groups (x :: xs) = Spec.groups [x] ++ Spec.groups xs := by
  cases x with
  | rule i r => simp [Spec.groups]
  | anchor a => cases a <;> simp [Spec.groups]

theorem addSects_cons (env : REnv) (p : Policy) (x : Spec.Sect) (xs : List Spec.Sect) : addSects env (addSects env p [x]) xs = addSects env p (x :: xs) := by
  unfold addSects
  rw [rules_cons false x xs, rules_cons true x xs, groups_cons x xs]
  simp [Bool.or_assoc]

theorem loadSections_ok {env : REnv} (h : StdRegex env) (isCert : Bytes → Bool) (secs : List (Bytes × Sec)) (p p' : Policy) (hp : Spec.Distinct p.anchors) :
    loadSections env isCert p secs = (.ok (), p') ↔ ∃ xs, Spec.All (Spec.SaysSect env isCert) secs xs ∧
      Spec.Distinct (p.anchors ++ Spec.groups xs) ∧ p' = addSects env p xs := by
  induction secs generalizing p with
  | nil =>
    simp only [loadSections, Prod.mk.injEq, true_and]
    constructor
    · rintro rfl; exact ⟨[], .nil, by simpa [Spec.groups] using hp, by simp [addSects, Spec.rules, Spec.groups]⟩
    · rintro ⟨xs, h1, _, rfl⟩; cases h1; simp [addSects, Spec.rules, Spec.groups]
  | cons a secs ih =>
    obtain ⟨k, s⟩ := a
    simp only [loadSections]
    have snoc : ∀ x, (∀ a ∈ Spec.groups [x], canLoad p.anchors a = true) → Spec.Distinct (addSects env p [x]).anchors := by
      intro x hx
      show Spec.Distinct (p.anchors ++ Spec.groups [x])
      unfold Spec.Distinct
      rw [List.pairwise_append]
      refine ⟨hp, ?_, fun g hg a ha => (canLoad_iff _ _).1 (hx a ha) g hg⟩
      cases x with
      | rule i r => simp [Spec.groups]
      | anchor a => cases a <;> simp [Spec.groups]
    constructor
    · intro hx
      cases hl : loadSection env isCert p k s with
      | ub => rw [hl] at hx; simp at hx
      | throws => rw [hl] at hx; simp at hx
      | ok q =>
        rw [hl] at hx
        obtain ⟨x, h1, h2, rfl⟩ := (loadSection_ok h _ _ _ _ _).1 hl
        obtain ⟨xs, h3, h4, h5⟩ := (ih _ (snoc x h2)).1 hx
        refine ⟨x :: xs, .cons h1 h3, ?_, by rw [h5, addSects_cons]⟩
        rw [groups_cons, ← List.append_assoc]
        exact h4
    · rintro ⟨xs, h1, h2, rfl⟩
      cases h1 with
      | @cons _ x _ xs h1 h3 =>
        have hc : ∀ a ∈ Spec.groups [x], canLoad p.anchors a = true := by
          intro a ha
          rw [canLoad_iff]
          rw [groups_cons] at h2
          unfold Spec.Distinct at h2
          rw [List.pairwise_append] at h2
          exact fun g hg => h2.2.2 g hg a (by simp [ha])
        rw [(loadSection_ok h _ _ _ _ _).2 ⟨x, h1, hc, rfl⟩]
        refine (ih _ (snoc x hc)).2 ⟨xs, h3, ?_, (addSects_cons _ _ _ _).symm⟩
        show Spec.Distinct (p.anchors ++ Spec.groups [x] ++ Spec.groups xs)
        rw [List.append_assoc, ← groups_cons]
        exact h2

end Ndn.Config
