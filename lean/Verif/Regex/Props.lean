import Verif.Regex.Lemmas
/-
C41: name regular expressions.

`Spec.Top` is an expression with its anchors, `print` its text, `Lang` the names it denotes, `Way` the
ways of matching with what the groups capture. The component regular expressions (`std::regex`) are a
parameter; all that is assumed of them is that `.*` is accepted, has no groups and matches everything (`Dot`).
-/
namespace Ndn.Regex
open Spec

variable {α : Type}

/-! ### Texts -/

/-- An expression is accepted exactly if it is the text of a well-formed expression. -/
theorem C41_accepts (env : Env α) (hd : Dot env) (e : Bytes) :
    (∃ m, compileTop env e = .ok m) ↔ ∃ t : Spec.Top, t.pat.WF env ∧ e = t.print ∧ e ≠ [] := by
  constructor
  · rintro ⟨m, h⟩; exact compileTop_ok h
  · rintro ⟨t, h1, rfl, h2⟩; exact ⟨_, compileTop_print hd h1 h2⟩

/-- All other texts are rejected with an exception, except the empty one. -/
theorem C41_rejects (env : Env α) (e : Bytes) (hne : e ≠ []) : (∃ m, compileTop env e = .ok m) ∨ compileTop env e = .throws := by
  cases h : compileTop env e with
  | ok m => exact Or.inl ⟨m, rfl⟩
  | throws => exact Or.inr rfl
  | ub =>
    exfalso
    unfold compileTop at h
    split at h
    · rename_i hl; rw [List.getLast?_eq_none_iff] at hl; exact hne hl
    · simp only at h
      split at h
      · split at h <;> simp at h
      · split at h <;> simp at h

/-- For the empty text the last character of an empty string is read. -/
theorem C41_empty_counterexample (env : Env α) : compileTop env [] = .ub := rfl

/-! ### Matching -/

/-- The claim: matching ends, with the right answer, for every expression and name. -/
def C41_claim : Prop := ∀ (α : Type) (env : Env α), Dot env → ∀ (t : Spec.Top) (m : Top), t.pat.WF env → compileTop env t.print = .ok m →
  ∀ (w : List α) (s : TS α), ∃ fuel, ∃ b s', m.match env fuel w s = some (b, s') ∧ (b = true ↔ t.Lang env w)

theorem print_ne {env : Env α} {t : Spec.Top} {m : Top} (h : compileTop env t.print = .ok m) : t.print ≠ [] := by
  intro e; rw [e] at h; simp [compileTop] at h

/-- Whatever the expression, a name that matches is in its language. -/
theorem C41_sound (env : Env α) (hd : Dot env) (t : Spec.Top) (hp : t.pat.WF env) (m : Top) (hm : compileTop env t.print = .ok m)
    (fuel : Nat) (w : List α) (s s' : TS α) (h : m.match env fuel w s = some (true, s')) : t.Lang env w := by
  rw [compileTop_print hd hp (print_ne hm)] at hm
  simp only [Result.ok.injEq] at hm
  subst hm
  obtain ⟨x, y, z, a, h1, h2, h3, h4, _⟩ := top_true hd hp h
  exact ⟨x, y, z, h1, (way_lang env _ 0 y).1 ⟨a, h4⟩, h2, h3⟩

/-- Answers are exact if no group that matches the empty name has a quantifier that demands repetitions
(`^(<a>*){2}$` does not match the empty name). -/
theorem C41_exact_partial (env : Env α) (hd : Dot env) (t : Spec.Top) (hp : t.pat.WF env) (hs : t.pat.Solid env) (m : Top)
    (hm : compileTop env t.print = .ok m) (fuel : Nat) (w : List α) (s s' : TS α) (b : Bool) (h : m.match env fuel w s = some (b, s')) :
    b = true ↔ t.Lang env w := by
  cases b with
  | true => exact ⟨fun _ => C41_sound env hd t hp m hm fuel w s s' h, fun _ => rfl⟩
  | false =>
    rw [compileTop_print hd hp (print_ne hm)] at hm
    simp only [Result.ok.injEq] at hm
    subst hm
    simp only [Bool.false_eq_true, false_iff]
    exact top_false hd hp hs h

/-- Matching ends if no group that matches the empty name has a quantifier without upper bound
(`(<a>*)*` does not end on some names). -/
theorem C41_terminates_partial (env : Env α) (hd : Dot env) (t : Spec.Top) (hp : t.pat.WF env) (hb : t.pat.Bounded env) (m : Top)
    (hm : compileTop env t.print = .ok m) (w : List α) (s : TS α) : ∃ n, ∀ fuel, n ≤ fuel → (m.match env fuel w s).isSome := by
  rw [compileTop_print hd hp (print_ne hm)] at hm
  simp only [Result.ok.injEq] at hm
  subst hm
  exact ⟨w.length + bound (primaryPat t) + 1, fun fuel hf => top_tot hd hp hb (by omega) (by omega)⟩

/-! ### Captures and expansion -/

/-- After a match, a template that does not end with a literal expands to the concatenation of its items:
`\0` is the whole name, `\i` what group `i` captured in a way of matching the name, if that group took
part in the match; a reference to a group that does not exist or a malformed literal is an error. -/
theorem C41_expand_partial (env : Env α) (hd : Dot env) (t : Spec.Top) (hp : t.pat.WF env) (m : Top) (hm : compileTop env t.print = .ok m)
    (fuel : Nat) (w : List α) (s s' : TS α) (h : m.match env fuel w s = some (true, s')) :
    ∃ x y z a cap, w = x ++ y ++ z ∧ (t.start = true → x = []) ∧ (t.fin = true → z = []) ∧ Way env t.pat 0 y a ∧
      (∀ r c, captured a r = some c → cap r = c) ∧
      ∀ is : List Item, (∀ i ∈ is, i.WF) → (∀ u, is.getLast? ≠ some (.lit u)) →
        m.expand env s' (is.flatMap Item.print) = (is.mapM (Item.value env (t.pat.groups env) cap w)).map List.flatten := by
  rw [compileTop_print hd hp (print_ne hm)] at hm
  simp only [Result.ok.injEq] at hm
  subst hm
  obtain ⟨x, y, z, a, h1, h2, h3, h4, h5, h6, h7⟩ := top_true hd hp h
  refine ⟨x, y, z, a, s'.store, h1, h2, h3, h4, h5, ?_⟩
  intro is hwf hl
  have he : endsLit is = false := by
    have : ∀ is : List Item, (∀ u, is.getLast? ≠ some (.lit u)) → endsLit is = false := by
      intro is
      induction is with
      | nil => intro _; rfl
      | cons i is ih =>
        intro h
        cases is with
        | nil => cases i with
          | lit u => exact absurd rfl (h u)
          | ref n => rfl
        | cons j is =>
          have := ih (by intro u; have := h u; rwa [List.getLast?_cons_cons] at this)
          cases i <;> exact this
    exact this is hl
  unfold Top.expand
  have fin := fun g : Nat => expandLoop_texts env g s'.store s'.result is hwf he _ (Nat.le_refl _)
  split
  · rename_i hu
    have e1 := fin (t.pat.groups env)
    unfold TS.store at e1 ⊢
    rw [if_pos hu] at e1 ⊢
    rw [h7 hu, ← h6]
    exact e1
  · rename_i hu
    have e1 := fin (t.pat.groups env)
    unfold TS.store at e1 ⊢
    rw [if_neg hu] at e1 ⊢
    rw [← h6]
    have : (topOf env t).primary.2 = t.pat.groups env := primary_groups hd t
    rw [this]
    exact e1

/-- A template that ends with a literal is an error, whatever was matched. -/
theorem C41_expand_counterexample (env : Env α) (m : Top) (s : TS α) (is : List Item) (u : Bytes) (hwf : ∀ i ∈ is ++ [Item.lit u], i.WF) :
    m.expand env s ((is ++ [Item.lit u]).flatMap Item.print) = none := by
  have he : ∀ is : List Item, endsLit (is ++ [.lit u]) = true := by
    intro is
    induction is with
    | nil => rfl
    | cons i is ih =>
      cases is with
      | nil => cases i <;> rfl
      | cons j is => cases i <;> exact ih
  unfold Top.expand
  split
  · exact expandLoop_lit env _ _ _ _ hwf (he is) _
  · exact expandLoop_lit env _ _ _ _ hwf (he is) _

/-! ### Expressions for a name -/

/-- What `fromName` needs of component expressions: URIs of components contain no brackets and no NUL,
differ for different components, and an escaped URI is an expression for itself alone. -/
structure Escapes (env : Env α) : Prop where
  chars : ∀ c, 60 ∉ env.uri c ∧ 62 ∉ env.uri c ∧ 0 ∉ env.uri c
  marks : ∀ c, (env.marks (convert (env.uri c))).isSome
  eval : ∀ c d, convert (env.uri c) ≠ [] ∧ ((env.eval (convert (env.uri c)) (env.uri d)).isSome ↔ env.uri d = env.uri c)
  inj : ∀ c d, env.uri c = env.uri d → c = d

/-- The expression made from a name matches that name only, or the names with that prefix. -/
theorem C41_fromName (env : Env α) (hd : Dot env) (he : Escapes env) (n : List α) (anchor : Bool) :
    ∃ m, compileTop env (fromName env n anchor) = .ok m ∧ ∀ (w : List α) (s : TS α), ∃ k, ∀ fuel, k ≤ fuel →
      ∃ b s', m.match env fuel w s = some (b, s') ∧ (b = true ↔ if anchor then w = n else n <+: w) := by
  have wf : (namePat env n).WF env := by
    induction n with
    | nil => trivial
    | cons c n ih =>
      obtain ⟨h1, h2, h3⟩ := he.chars c
      refine ⟨⟨bal_none ?_ ?_, ?_, he.marks c⟩, trivial, ih⟩
      · intro h; rcases convert_mem h with h | h
        · simp at h
        · exact h1 h
      · intro h; rcases convert_mem h with h | h
        · simp at h
        · exact h2 h
      · intro h; rcases convert_mem h with h | h
        · simp at h
        · exact h3 h
  have fits : ∀ c d, Fits env (convert (env.uri c)) d ↔ d = c := by
    intro c d
    unfold Fits
    obtain ⟨h1, h2⟩ := he.eval c d
    rw [h2]
    constructor
    · rintro (h | h)
      · exact absurd h h1
      · exact he.inj _ _ h
    · rintro rfl; exact Or.inr rfl
  rw [fromName_print]
  have hne : (Spec.Top.print ⟨true, anchor, namePat env n⟩) ≠ [] := by simp [Spec.Top.print]
  have hm := compileTop_print (t := ⟨true, anchor, namePat env n⟩) hd wf hne
  refine ⟨_, hm, ?_⟩
  intro w s
  obtain ⟨k, hk⟩ := C41_terminates_partial env hd _ wf (namePat_solid env n).2 _ hm w s
  refine ⟨k, fun fuel hf => ?_⟩
  have := hk fuel hf
  cases hr : (topOf env ⟨true, anchor, namePat env n⟩).match env fuel w s with
  | none => rw [hr] at this; simp at this
  | some x =>
    obtain ⟨b, s'⟩ := x
    refine ⟨b, s', rfl, ?_⟩
    rw [C41_exact_partial env hd _ wf (namePat_solid env n).1 _ hm fuel w s s' b hr]
    unfold Spec.Top.Lang
    simp only [namePat_lang env fits]
    cases anchor with
    | true =>
      simp only [if_true, true_implies]
      constructor
      · rintro ⟨x, y, z, rfl, rfl, rfl, rfl⟩; simp
      · rintro rfl; exact ⟨[], w, [], by simp, rfl, rfl, rfl⟩
    | false =>
      constructor
      · rintro ⟨x, y, z, rfl, rfl, hx, _⟩
        rw [hx trivial]; exact ⟨z, rfl⟩
      · rintro ⟨z, rfl⟩; exact ⟨[], n, z, rfl, rfl, fun _ => rfl, by simp⟩

/-- Escaping makes an expression that stands for the text, if the text has no closing bracket `]` (a URI
of a component has none: it is escaped there). -/
theorem C41_escaping (x : Bytes) (h : 93 ∉ x) : Literal (convert x) x := by
  induction x with
  | nil => exact .nil
  | cons c x ih =>
    have ih := ih (fun hx => h (by simp [hx]))
    have hc : c ≠ 93 := fun e => h (by simp [e])
    unfold convert at ih ⊢
    rw [List.flatMap_cons]
    by_cases hs : special c = true
    · rw [if_pos hs]
      refine .escaped c _ _ ?_ ih
      simp only [special, decide_eq_true_eq, List.mem_cons, List.not_mem_nil, or_false] at hs
      simp only [syntaxChars, List.mem_cons, List.not_mem_nil, or_false]
      rcases hs with h | h | h | h | h | h | h | h | h | h | h | h | h <;> simp [h]
    · rw [if_neg hs]
      refine .char c _ _ ?_ ih
      simp only [special, decide_eq_true_eq, List.mem_cons, List.not_mem_nil, or_false, not_or] at hs
      simp only [syntaxChars, List.mem_cons, List.not_mem_nil, or_false, not_or]
      simp [hs, hc]

example : (93 : UInt8) ∉ ([97, 46, 98] : Bytes) ∧ convert [97, 46, 98] = [97, 92, 46, 98] := by decide

/-! ### Examples -/

/-- Components with their URIs for themselves; expressions `.*`, `(.*)` and literals. -/
def exEnv : Env Bytes where
  uri c := c
  lit x := x
  parse u := some [u]
  marks re := if re = [40, 46, 42, 41] then some 1 else some 0
  eval re u := if re = [46, 42] then some [] else if re = [40, 46, 42, 41] then some [u] else if re = u then some [] else none

theorem exDot : Dot exEnv := ⟨fun c => Or.inr rfl, rfl⟩

theorem ex_compWF {re : Bytes} (h1 : 60 ∉ re) (h2 : 62 ∉ re) (h3 : 0 ∉ re) : CompWF exEnv re := by
  refine ⟨bal_none h1 h2, h3, ?_⟩
  unfold exEnv
  simp only
  split <;> rfl

/-- `^(<a>*)<(.*)>$`. -/
def exTop : Spec.Top := ⟨true, true, .group (.comp [97] .star .nil) .one (.comp [40, 46, 42, 41] .one .nil)⟩

theorem exTop_wf : exTop.pat.WF exEnv := by
  refine ⟨⟨ex_compWF (by decide) (by decide) (by decide), trivial, trivial⟩, bal_none (by decide) (by decide), trivial,
    ex_compWF (by decide) (by decide) (by decide), trivial, trivial⟩

theorem exTop_solid : exTop.pat.Solid exEnv ∧ exTop.pat.Bounded exEnv :=
  ⟨⟨trivial, Or.inl rfl, trivial⟩, ⟨trivial, by simp [Q.max], trivial⟩⟩

example : ∃ m, compileTop exEnv exTop.print = .ok m := ⟨_, compileTop_print exDot exTop_wf (by decide)⟩

-- `/a/a/b` matches; `\2\1\0` expands to `/b/a/a/a/a/b`
example : ∃ s', (topOf exEnv exTop).match exEnv 5 [[97], [97], [98]] TS.init = some (true, s') ∧
    (topOf exEnv exTop).expand exEnv s' [92, 50, 92, 49, 92, 48] = some [[98], [97], [97], [97], [97], [98]] := by
  refine ⟨_, rfl, ?_⟩
  decide

example : exTop.Lang exEnv [[97], [97], [98]] :=
  ⟨[], _, [], rfl, ⟨[[97], [97]], [[98]], 1, rfl, ⟨Nat.le_refl _, fun m hm => by simp [Q.max] at hm; omega⟩,
    ⟨[[97], [97]], [], rfl, ⟨[[97], [97]], [], 2, rfl, star_allows 2, ⟨[[97]], [[97]], rfl, ⟨[97], rfl, Or.inr rfl⟩, [[97]], [], rfl, ⟨[97], rfl, Or.inr rfl⟩, rfl⟩, rfl⟩, rfl⟩,
    ⟨[[98]], [], 1, rfl, ⟨Nat.le_refl _, fun m hm => by simp [Q.max] at hm; omega⟩, ⟨[[98]], [], rfl, ⟨[98], rfl, Or.inr rfl⟩, rfl⟩, rfl⟩⟩, fun _ => rfl, fun _ => rfl⟩

example : (∀ i ∈ [Item.lit [99], .ref [49]], i.WF) ∧ ∀ u, [Item.lit [99], .ref [49]].getLast? ≠ some (.lit u) := by
  refine ⟨?_, by simp⟩
  intro i hi
  simp at hi
  rcases hi with rfl | rfl
  · exact bal_none (by decide) (by decide)
  · exact ⟨by decide, by decide, by decide⟩

/-- Components that are one letter `a` to `z`; expressions are literals and `.*`. -/
def exEnv2 : Env (Fin 26) where
  uri c := [UInt8.ofNat (97 + c.val)]
  lit x := ⟨(x.headD 0).toNat % 26, by omega⟩
  parse u := some []
  marks re := some 0
  eval re u := if re = [46, 42] then some [] else if re = u then some [] else none

example : Dot exEnv2 ∧ Escapes exEnv2 := by
  refine ⟨⟨fun c => Or.inr rfl, rfl⟩, ?_, fun _ => rfl, ?_, ?_⟩
  · decide
  · decide
  · decide

/-! ### Where the claim fails -/

/-- `^(<a>*)*$` -/
def loopTop : Spec.Top := ⟨true, true, .group (.comp [97] .star .nil) .star .nil⟩

theorem loopTop_wf : loopTop.pat.WF exEnv :=
  ⟨⟨ex_compWF (by decide) (by decide) (by decide), trivial, trivial⟩, bal_none (by decide) (by decide), trivial, trivial⟩

theorem loop_never (fuel : Nat) (s : TS Bytes) : (topOf exEnv loopTop).match exEnv fuel [[98]] s = none := by
  -- the group matches the empty name and not `/b`
  have inner : ∀ (fuel : Nat) (s : Store Bytes), ∃ s1, matchM exEnv (fuel + 1) (.group 0 (.cons (.rep (.set true [⟨[97], 1, 0⟩]) 0 none) .nil)) [[98]] s = some (false, s1) := by
    intro fuel s; exact ⟨_, rfl⟩
  have inner0 : ∀ (fuel : Nat) (s : Store Bytes), ∃ s1, matchM exEnv (fuel + 1) (.group 0 (.cons (.rep (.set true [⟨[97], 1, 0⟩]) 0 none) .nil)) [] s = some (true, s1) := by
    intro fuel s; exact ⟨_, rfl⟩
  have rep : ∀ (F fuel k : Nat) (s : Store Bytes),
      repMatch (fun w s => matchM exEnv (F + 1) (.group 0 (.cons (.rep (.set true [⟨[97], 1, 0⟩]) 0 none) .nil)) w s) 0 none fuel k [[98]] s = none := by
    intro F fuel
    induction fuel with
    | zero => intro k s; rfl
    | succ fuel ih =>
      intro k s
      unfold repMatch
      simp only [full, Bool.false_eq_true, and_false, if_false]
      rw [if_neg (by simp), List.length_singleton, tryLen_eq]
      obtain ⟨s1, e1⟩ := inner F s
      simp only [List.take_succ_cons, List.take_zero, e1]
      simp only [Bool.false_eq_true, if_false]
      rw [tryLen_eq]
      obtain ⟨s2, e2⟩ := inner0 F s1
      simp only [List.take_zero, e2, if_true, List.drop_zero, ih]
  have top : ∀ s, matchM exEnv fuel (toM exEnv (primaryPat loopTop) 0) [[98]] s = none := by
    intro s
    cases fuel with
    | zero => rfl
    | succ F =>
      show tryLen (fun w s => matchM exEnv (F + 1) (.rep (.group 0 (.cons (.rep (.set true [⟨[97], 1, 0⟩]) 0 none) .nil)) 0 none) w s) _ 1 [[98]] s = none
      rw [tryLen_eq]
      have : matchM exEnv (F + 1) (.rep (.group 0 (.cons (.rep (.set true [⟨[97], 1, 0⟩]) 0 none) .nil)) 0 none) [[98]] s = none := by
        unfold matchM
        rw [if_neg (by simp)]
        exact rep F (F + 1) 0 s
      simp only [List.take_succ_cons, List.take_zero, this]
  unfold Top.match
  have e := top s.primary
  have : (topOf exEnv loopTop).primary.1 = toM exEnv (primaryPat loopTop) 0 := rfl
  rw [this, e]

/-- Matching `/b` with `^(<a>*)*$` does not end. -/
theorem C41_terminates_counterexample : ∃ m, compileTop exEnv loopTop.print = .ok m ∧ ∀ fuel s, m.match exEnv fuel [[98]] s = none :=
  ⟨_, compileTop_print exDot loopTop_wf (by decide), loop_never⟩

/-- Matching does not end for every expression (`C41_terminates_counterexample`). -/
theorem C41_counterexample : ¬ C41_claim := by
  intro h
  obtain ⟨fuel, b, s', h1, _⟩ := h Bytes exEnv exDot loopTop _ loopTop_wf (compileTop_print exDot loopTop_wf (by decide)) [[98]] TS.init
  rw [loop_never] at h1
  simp at h1

/-- `^(<a>*){2}$` -/
def twiceTop : Spec.Top := ⟨true, true, .group (.comp [97] .star .nil) (.exact [50]) .nil⟩

theorem twiceTop_wf : twiceTop.pat.WF exEnv :=
  ⟨⟨ex_compWF (by decide) (by decide) (by decide), trivial, trivial⟩, bal_none (by decide) (by decide), ⟨by decide, by decide, by decide⟩, trivial⟩

/-- The empty name is in the language of `^(<a>*){2}$` and does not match. -/
theorem C41_exact_counterexample : ∃ m, compileTop exEnv twiceTop.print = .ok m ∧ twiceTop.Lang exEnv [] ∧
    ∃ s', m.match exEnv 5 [] TS.init = some (false, s') := by
  refine ⟨_, compileTop_print exDot twiceTop_wf (by decide), ?_, ⟨_, rfl⟩⟩
  have e : Lang exEnv (.comp [97] .star .nil) [] := ⟨[], [], 0, rfl, star_allows 0, rfl, rfl⟩
  exact ⟨[], [], [], rfl, ⟨[], [], 2, rfl, ⟨by decide, fun m hm => by simp [Q.max] at hm; subst hm; decide⟩, pow_nils e 2, rfl⟩, fun _ => rfl, fun _ => rfl⟩

/-- `^(<a>)*<a>$`: the group takes no part in matching `/a`, and yet `\1` expands to `/a`, left over from
a failed attempt; in the only way of matching, nothing is captured. -/
def staleTop : Spec.Top := ⟨true, true, .group (.comp [97] .one .nil) .star (.comp [97] .one .nil)⟩

theorem staleTop_wf : staleTop.pat.WF exEnv :=
  ⟨⟨ex_compWF (by decide) (by decide) (by decide), trivial, trivial⟩, bal_none (by decide) (by decide), trivial,
    ex_compWF (by decide) (by decide) (by decide), trivial, trivial⟩

/-- A group that took no part in the match keeps what an earlier attempt captured. -/
theorem C41_captures_counterexample : ∃ m s', compileTop exEnv staleTop.print = .ok m ∧
    m.match exEnv 5 [[97]] TS.init = some (true, s') ∧ m.expand exEnv s' [92, 49] = some [[97]] ∧
    Way exEnv staleTop.pat 0 [[97]] [] ∧ ∀ a, Way exEnv staleTop.pat 0 [[97]] a → captured a 0 = none := by
  refine ⟨_, _, compileTop_print exDot staleTop_wf (by decide), rfl, by decide, ?_, ?_⟩
  · have c : compCaps exEnv 1 [97] ([97] : Bytes) [] := Or.inr ⟨by simp, [], rfl, rfl⟩
    exact ⟨[], [[97]], 0, [], [], rfl, rfl, star_allows 0, ⟨rfl, rfl⟩,
      [[97]], [], 1, [], [], rfl, rfl, ⟨Nat.le_refl _, fun m hm => by simp [Q.max] at hm; omega⟩, ⟨[97], rfl, Or.inr rfl, c⟩, rfl, rfl⟩
  · rintro a ⟨u, v, k, b, c, e, rfl, h1, h2, u', v', k', b', c', e', rfl, h3, h4, rfl, rfl⟩
    have hk : k' = 1 := by
      have a := h3.1; have b := h3.2 1 rfl
      simp only [Q.min] at a; omega
    subst hk
    obtain ⟨y, rfl, _, hc⟩ := h4
    have hb : b' = [] := by
      have := compCaps_within exEnv hc
      cases b' with
      | nil => rfl
      | cons x b' =>
        have := this x (by simp)
        have e : marksOf exEnv [97] = 0 := rfl
        omega
    subst hb
    have hu : u = [] := by
      have := congrArg List.length e
      rw [e'] at this
      simp at this
      exact this
    subst hu
    cases k with
    | zero => obtain ⟨_, rfl⟩ := h2; rfl
    | succ k =>
      exfalso
      have hp := powD_pow (P := fun x => x ≠ []) (by
        rintro w d ⟨d', _, x, y, j, b1, c1, rfl, _, j1, j2, rfl, _⟩
        have hj : j = 1 := by
          have a := j1.1; have b := j1.2 1 rfl
          simp only [Q.min] at a; omega
        subst hj
        obtain ⟨z, rfl, _⟩ := j2
        simp) (k + 1) [] b h2
      exact pow_nil_of hp rfl

/-- Components as in the library, with expressions `.*`, `(.*)` and literals. -/
def nameEnv : Env Name.Comp where
  uri := Name.Comp.toUri true
  lit x := ⟨8, x⟩
  parse u := Name.fromUri u
  marks re := if re = [40, 46, 42, 41] then some 1 else some 0
  eval re u := if re = [46, 42] then some [] else if re = [40, 46, 42, 41] then some [u] else if re = u then some [] else none

/-- `^<(.*)>$`: the group in the component expression captures the text of the URI, not the component:
matching `/%00`, `\\1` expands to `/%2500`. -/
theorem C41_component_counterexample : ∃ m s', compileTop nameEnv [94, 60, 40, 46, 42, 41, 62, 36] = .ok m ∧
    m.match nameEnv 5 [⟨8, [0]⟩] TS.init = some (true, s') ∧ m.expand nameEnv s' [92, 49] = some [⟨8, [37, 48, 48]⟩] := by
  refine ⟨_, _, rfl, rfl, ?_⟩
  decide

end Ndn.Regex
