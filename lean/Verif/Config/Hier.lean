import Verif.Config.Lemmas
/-
The hierarchical checker: what its two expressions match and capture.
-/
namespace Ndn.Config
open Ndn.Name Ndn.Packet
open Ndn.Regex (Exact Frame F tryLen matchM toM topOf match_toM CLang lang_clang clang_lang tryLen_exact tryLen_frame tryLen_eq Dot Store Res)
open Ndn.Regex.Spec (Pat Q Lang Fits Pow marksOf)

/-- What is assumed of `std::regex` and of the URI format: `.*` matches everything; the empty expression and `KEY` are
accepted and have no groups; `KEY` matches itself only; a component's URI is in the default (alternate) format. -/
structure StdRegex (env : REnv) : Prop where
  dot : Dot env
  marksEmpty : env.marks [] = some 0
  marksKey : env.marks keyComp.value = some 0
  evalKey : ∀ u, (env.eval keyComp.value u).isSome ↔ u = keyComp.value
  uri : env.uri = Comp.toUri true

/-- `<>*` -/
def restPat : Pat := .comp keyComp.value .one (.comp [] (.between [49] [51]) .nil)
def anyComps : Pat := .comp [] .star .nil
def hierPTop : Regex.Spec.Top := ⟨true, true, .group anyComps .one .nil⟩
def hierKTop : Regex.Spec.Top := ⟨true, true, .group anyComps .one restPat⟩

theorem hierP_print : hierPTop.print = hierP := by decide
theorem hierK_print : hierKTop.print = hierK := by decide

theorem empty_wf {env : REnv} (h : StdRegex env) : Regex.Spec.CompWF env [] :=
  ⟨Regex.bal_none (by simp) (by simp), by simp, by rw [h.marksEmpty]; rfl⟩

theorem key_wf {env : REnv} (h : StdRegex env) : Regex.Spec.CompWF env keyComp.value :=
  ⟨Regex.bal_none (by decide) (by decide), by decide, by rw [h.marksKey]; rfl⟩

theorem rest_wf {env : REnv} (h : StdRegex env) : restPat.WF env :=
  ⟨key_wf h, trivial, empty_wf h, ⟨⟨by decide, by decide, by decide⟩, ⟨by decide, by decide, by decide⟩, by decide⟩, trivial⟩

theorem any_wf {env : REnv} (h : StdRegex env) : anyComps.WF env := ⟨empty_wf h, trivial, trivial⟩

theorem hierP_wf {env : REnv} (h : StdRegex env) : hierPTop.pat.WF env :=
  ⟨any_wf h, Regex.bal_none (by decide) (by decide), trivial, trivial⟩

theorem hierK_wf {env : REnv} (h : StdRegex env) : hierKTop.pat.WF env :=
  ⟨any_wf h, Regex.bal_none (by decide) (by decide), trivial, rest_wf h⟩

theorem marks_empty {env : REnv} (h : StdRegex env) : marksOf env [] = 0 := by unfold marksOf; rw [h.marksEmpty]; rfl
theorem marks_key {env : REnv} (h : StdRegex env) : marksOf env keyComp.value = 0 := by unfold marksOf; rw [h.marksKey]; rfl

theorem any_groups {env : REnv} (h : StdRegex env) : anyComps.groups env = 0 := by
  simp [anyComps, Pat.groups, marks_empty h]

theorem rest_groups {env : REnv} (h : StdRegex env) : restPat.groups env = 0 := by
  simp [restPat, Pat.groups, marks_empty h, marks_key h]

theorem pow_any (env : REnv) (k : Nat) (u : List Comp) : Pow (fun x => ∃ c, x = [c] ∧ Fits env [] c) k u ↔ u.length = k := by
  induction k generalizing u with
  | zero => simp [Regex.Spec.Pow]
  | succ k ih =>
    constructor
    · rintro ⟨x, y, rfl, ⟨c, rfl, _⟩, h⟩
      simp [(ih y).1 h]
    · intro h
      cases u with
      | nil => simp at h
      | cons c u => exact ⟨[c], u, rfl, ⟨c, rfl, Or.inl rfl⟩, (ih u).2 (by simpa using h)⟩

theorem any_lang (env : REnv) (w : List Comp) : Lang env anyComps w :=
  ⟨w, [], w.length, by simp, Regex.star_allows _, (pow_any env _ w).2 rfl, rfl⟩

theorem key_uri (c : Comp) : c.toUri true = keyComp.value ↔ c = keyComp := by
  constructor
  · intro h
    have hno : (61 : UInt8) ∉ c.toUri true := by rw [h]; decide
    rw [show c.toUri true = c.uriAlternate from rfl] at h hno
    unfold Comp.uriAlternate at h hno
    have hcan : (61 : UInt8) ∈ c.uriCanonical := by simp [Comp.uriCanonical]
    cases hk : kindOf c.type with
    | base => rw [hk] at hno; exact absurd hcan hno
    | sha256 p => rw [hk] at hno; simp at hno
    | decimal p =>
      rw [hk] at hno
      simp only at hno
      split at hno
      · simp at hno
      · exact absurd hcan hno
    | generic =>
      rw [hk] at h
      simp only at h
      have ht : c.type = 8 := by
        unfold kindOf at hk
        repeat (split at hk; · first | assumption | simp at hk)
        simp at hk
      have hv : c.value = keyComp.value := by
        unfold escapedValue at h
        split at h
        · have := congrArg List.head? h
          simp [keyComp] at this
        · rw [List.nil_append] at h
          exact Hex.C20_injective _ _ (h.trans (by decide))
      cases c
      simp only at ht hv
      subst ht hv
      rfl
  · rintro rfl; decide

theorem fits_key {env : REnv} (h : StdRegex env) (c : Comp) : Fits env keyComp.value c ↔ c = keyComp := by
  unfold Fits
  rw [h.evalKey, h.uri, key_uri]
  constructor
  · rintro (h | h)
    · exact absurd h (by decide)
    · exact h
  · exact Or.inr

theorem rest_lang {env : REnv} (h : StdRegex env) (v : List Comp) :
    Lang env restPat v ↔ ∃ r, v = keyComp :: r ∧ 1 ≤ r.length ∧ r.length ≤ 3 := by
  constructor
  · rintro ⟨u, t, k, rfl, hk, hp, u', t', k', rfl, hk', hp', rfl⟩
    have e : k = 1 := by
      have a := hk.1; have b := hk.2 1 rfl
      simp only [Q.min] at a; omega
    subst e
    obtain ⟨x, y, rfl, ⟨c, rfl, hc⟩, hy⟩ := hp
    simp only [Regex.Spec.Pow] at hy
    subst hy
    rw [fits_key h] at hc
    subst hc
    have hl := (pow_any env k' u').1 hp'
    have a := hk'.1; have b := hk'.2 3 rfl
    have a : 1 ≤ k' := a
    exact ⟨u', by simp, by omega, by omega⟩
  · rintro ⟨r, rfl, h1, h2⟩
    refine ⟨[keyComp], r, 1, rfl, ⟨Nat.le_refl _, fun m hm => by simp [Q.max] at hm; omega⟩, ?_, r, [], r.length, by simp, ⟨h1, fun m hm => ?_⟩, (pow_any env _ r).2 rfl, rfl⟩
    · exact ⟨[keyComp], [], rfl, ⟨keyComp, rfl, (fits_key h _).2 rfl⟩, rfl⟩
    · have : (some 3 : Option Nat) = some m := hm
      cases this; exact h2

theorem any_solid (env : REnv) : anyComps.Solid env := trivial
theorem rest_solid (env : REnv) : restPat.Solid env := trivial

/-! ### Matching -/

/-- The longest part first: what `tryLen` finds if the first matcher accepts everything and records it, and the
second one leaves the store alone. -/
theorem tryLen_longest {f g : F Comp} {G : List Comp → Prop}
    (hf : ∀ w s b s', f w s = some (b, s') → b = true ∧ s' 0 = w)
    (hg : Exact g G) (hfr : ∀ w s b s', g w s = some (b, s') → ∀ r, s' r = s r)
    (t : Nat) (w : List Comp) (s : Store Comp) (b : Bool) (s' : Store Comp) (h : tryLen f g t w s = some (b, s')) :
    (b = true → ∃ k, k ≤ t ∧ G (w.drop k) ∧ s' 0 = w.take k ∧ ∀ j, k < j → j ≤ t → ¬ G (w.drop j)) ∧
    (b = false → ∀ j, j ≤ t → ¬ G (w.drop j)) := by
  induction t generalizing s with
  | zero =>
    rw [tryLen_eq] at h
    cases hx : f (w.take 0) s with
    | none => rw [hx] at h; simp at h
    | some p =>
      obtain ⟨c, s1⟩ := p
      rw [hx] at h
      obtain ⟨rfl, h0⟩ := hf _ _ _ _ hx
      simp only [if_true] at h
      cases hy : g (w.drop 0) s1 with
      | none => rw [hy] at h; simp at h
      | some q =>
        obtain ⟨d, s2⟩ := q
        rw [hy] at h
        have hd := hg _ _ _ _ hy
        have hs := hfr _ _ _ _ hy
        cases d with
        | true =>
          simp only [Option.some.injEq, Prod.mk.injEq] at h
          obtain ⟨rfl, rfl⟩ := h
          refine ⟨fun _ => ⟨0, Nat.le_refl _, hd.1 rfl, by rw [hs, h0], fun j h1 h2 => by omega⟩, by simp⟩
        | false =>
          simp only [Option.some.injEq, Prod.mk.injEq] at h
          obtain ⟨rfl, rfl⟩ := h
          refine ⟨by simp, fun _ j hj => ?_⟩
          have : j = 0 := by omega
          subst this
          intro hG
          exact absurd (hd.2 hG) (by simp)
  | succ t ih =>
    rw [tryLen_eq] at h
    cases hx : f (w.take (t + 1)) s with
    | none => rw [hx] at h; simp at h
    | some p =>
      obtain ⟨c, s1⟩ := p
      rw [hx] at h
      obtain ⟨rfl, h0⟩ := hf _ _ _ _ hx
      simp only [if_true] at h
      cases hy : g (w.drop (t + 1)) s1 with
      | none => rw [hy] at h; simp at h
      | some q =>
        obtain ⟨d, s2⟩ := q
        rw [hy] at h
        have hd := hg _ _ _ _ hy
        have hs := hfr _ _ _ _ hy
        cases d with
        | true =>
          simp only [Option.some.injEq, Prod.mk.injEq] at h
          obtain ⟨rfl, rfl⟩ := h
          refine ⟨fun _ => ⟨t + 1, Nat.le_refl _, hd.1 rfl, by rw [hs, h0], fun j h1 h2 => by omega⟩, by simp⟩
        | false =>
          simp only at h
          have hno : ¬ G (w.drop (t + 1)) := fun hG => absurd (hd.2 hG) (by simp)
          obtain ⟨i1, i2⟩ := ih s2 h
          refine ⟨fun hb => ?_, fun hb j hj => ?_⟩
          · obtain ⟨k, k1, k2, k3, k4⟩ := i1 hb
            refine ⟨k, by omega, k2, k3, fun j h1 h2 => ?_⟩
            by_cases e : j = t + 1
            · subst e; exact hno
            · exact k4 j h1 (by omega)
          · by_cases e : j = t + 1
            · subst e; exact hno
            · exact i2 hb j (by omega)

/-- The group `(<>*)` accepts everything and captures it. -/
theorem group_any {env : REnv} (h : StdRegex env) (fuel : Nat) (w : List Comp) (s : Store Comp) (b : Bool) (s' : Store Comp)
    (hm : matchM env fuel (.group 0 (toM env anyComps 1)) w s = some (b, s')) : b = true ∧ s' 0 = w := by
  have hx := match_toM env fuel anyComps (any_wf h) 1
  have he : Exact (fun (w : List Comp) (s : Store Comp) => some (w.isEmpty, s)) (fun w => w = []) := by
    intro w s b s' e
    simp only [Option.some.injEq, Prod.mk.injEq] at e
    rw [← e.1]; simp
  have hE := tryLen_exact hx.1 he
  simp only [matchM] at hm
  split at hm
  · simp at hm
  · simp only [Option.some.injEq, Prod.mk.injEq] at hm
    obtain ⟨rfl, rfl⟩ := hm
    exact ⟨rfl, by simp [Store.put]⟩
  · rename_i hq
    exfalso
    have := (hE w _ _ _ hq).2 ⟨w, [], by simp, lang_clang env _ (any_solid env) _ (any_lang env w), rfl⟩
    simp at this

theorem hierK_toM {env : REnv} (h : StdRegex env) :
    topOf env hierKTop = ⟨(.cons (.group 0 (toM env anyComps 1)) (toM env restPat 1), 1), none⟩ := by
  unfold topOf Regex.primaryPat hierKTop
  simp only [if_true]
  congr 1
  congr 1
  · simp only [toM, if_true, any_groups h]
  · simp [Pat.groups, any_groups h, rest_groups h]

theorem hierP_toM {env : REnv} (h : StdRegex env) :
    topOf env hierPTop = ⟨(.cons (.group 0 (toM env anyComps 1)) .nil, 1), none⟩ := by
  unfold topOf Regex.primaryPat hierPTop
  simp only [if_true]
  congr 1
  congr 1
  · simp [Pat.groups, any_groups h]

/-- What the expression for key locators finds. -/
theorem hierK_match {env : REnv} (h : StdRegex env) (fuel : Nat) (w : List Comp) (s s' : TS) (b : Bool)
    (hm : (topOf env hierKTop).match env fuel w s = some (b, s')) :
    (b = true → ∃ id, Spec.HierIdentity w id ∧ (topOf env hierKTop).expand env s' hierExpand = some id) ∧
    (b = false → ∀ id, ¬ Spec.HierIdentity w id) := by
  rw [hierK_toM h] at hm ⊢
  have hr := match_toM env fuel restPat (rest_wf h) 1
  rw [rest_groups h] at hr
  have hE : Exact (matchM env fuel (toM env restPat 1)) (fun v => ∃ r, v = keyComp :: r ∧ 1 ≤ r.length ∧ r.length ≤ 3) := by
    intro w s b s' e
    rw [hr.1 w s b s' e]
    show _ ↔ ∃ r, w = keyComp :: r ∧ 1 ≤ r.length ∧ r.length ≤ 3
    rw [← rest_lang h]
    exact ⟨clang_lang env _ _, lang_clang env _ (rest_solid env) _⟩
  have key : ∀ st b' st', matchM env fuel (.cons (.group 0 (toM env anyComps 1)) (toM env restPat 1)) w st = some (b', st') →
      (b' = true → ∃ id, Spec.HierIdentity w id ∧ st' 0 = id) ∧ (b' = false → ∀ id, ¬ Spec.HierIdentity w id) := by
    intro st b' st' e
    simp only [matchM] at e
    obtain ⟨t1, t2⟩ := tryLen_longest (f := fun w s => matchM env fuel (.group 0 (toM env anyComps 1)) w s)
      (g := fun w s => matchM env fuel (toM env restPat 1) w s)
      (fun w s b s' => group_any h fuel w s b s') hE (fun w s b s' q r => hr.2.1 w s b s' q r (by omega)) w.length w st b' st'
      (by simp only [matchM]; exact e)
    constructor
    · intro hb
      obtain ⟨k, k1, ⟨r, k2, k3, k4⟩, k5, k6⟩ := t1 hb
      have hw : w = w.take k ++ keyComp :: r := by rw [← k2, List.take_append_drop]
      rcases List.eq_nil_or_concat r with rfl | ⟨mid, x, rfl⟩
      · simp at k3
      refine ⟨w.take k, ⟨mid, x, by rw [← List.concat_eq_append]; exact hw, by simp at k4; omega, ?_⟩, k5⟩
      intro hmem
      obtain ⟨a, c, rfl⟩ := List.append_of_mem hmem
      have hlen : w.length = k + 1 + (a.length + 1 + c.length + 1) := by
        rw [hw]
        have : (w.take k).length = k := by rw [List.length_take]; omega
        simp only [List.length_append, this, List.length_cons, List.concat_eq_append, List.length_nil]; omega
      refine k6 (k + 1 + a.length) (by omega) (by omega) ⟨c ++ [x], ?_, by simp, by simp at k4 ⊢; omega⟩
      rw [Nat.add_assoc, ← List.drop_drop, k2]
      simp [List.drop_append, Nat.add_comm 1]
    · rintro hb id ⟨mid, x, hw, h1, h2⟩
      refine t2 hb id.length (by rw [hw]; simp) ⟨mid ++ [x], by rw [hw]; simp, by simp, by simp; omega⟩
  unfold Regex.Top.match at hm
  simp only at hm
  split at hm
  · simp at hm
  · rename_i p hp
    simp only [Option.some.injEq, Prod.mk.injEq] at hm
    obtain ⟨rfl, rfl⟩ := hm
    refine ⟨fun _ => ?_, by simp⟩
    obtain ⟨id, i1, i2⟩ := (key _ _ _ hp).1 rfl
    refine ⟨id, i1, ?_⟩
    rw [← i2]
    simp [Regex.Top.expand, hierExpand, Regex.expandLoop, Regex.isDigit, Regex.stoul, Regex.number]
  · rename_i p hp
    simp only [Option.some.injEq, Prod.mk.injEq] at hm
    obtain ⟨rfl, rfl⟩ := hm
    exact ⟨by simp, fun _ => (key _ _ _ hp).2 rfl⟩

/-- The expression for packet names matches every name and captures it. -/
theorem hierP_match {env : REnv} (h : StdRegex env) (fuel : Nat) (w : List Comp) (s s' : TS) (b : Bool)
    (hm : (topOf env hierPTop).match env fuel w s = some (b, s')) :
    b = true ∧ (topOf env hierPTop).expand env s' hierExpand = some w := by
  rw [hierP_toM h] at hm ⊢
  have hE : Exact (fun (w : List Comp) (s : Store Comp) => matchM env fuel .nil w s) (fun w => w = []) := by
    intro w s b s' e
    simp only [matchM, Option.some.injEq, Prod.mk.injEq] at e
    rw [← e.1]; simp
  have key : ∀ st b' st', matchM env fuel (.cons (.group 0 (toM env anyComps 1)) .nil) w st = some (b', st') → b' = true ∧ st' 0 = w := by
    intro st b' st' e
    simp only [matchM] at e
    obtain ⟨t1, t2⟩ := tryLen_longest (f := fun w s => matchM env fuel (.group 0 (toM env anyComps 1)) w s)
      (g := fun w s => matchM env fuel .nil w s)
      (fun w s b s' => group_any h fuel w s b s') hE (fun w s b s' q r => by simp [matchM] at q; rw [q.2]) w.length w st b' st'
      (by simp only [matchM]; exact e)
    cases b' with
    | false => exact absurd (by simp) (t2 rfl w.length (Nat.le_refl _))
    | true =>
      obtain ⟨k, k1, k2, k3, _⟩ := t1 rfl
      have : k = w.length := by
        have := congrArg List.length k2
        simp at this; omega
      exact ⟨rfl, by rw [k3, this]; simp⟩
  unfold Regex.Top.match at hm
  simp only at hm
  split at hm
  · simp at hm
  · rename_i p hp
    simp only [Option.some.injEq, Prod.mk.injEq] at hm
    obtain ⟨rfl, rfl⟩ := hm
    refine ⟨rfl, ?_⟩
    rw [← (key _ _ _ hp).2]
    simp [Regex.Top.expand, hierExpand, Regex.expandLoop, Regex.isDigit, Regex.stoul, Regex.number]
  · rename_i p hp
    exact absurd (key _ _ _ hp).1 (by simp)

theorem hierIdentity_unique {kl a b : List Comp} (h1 : Spec.HierIdentity kl a) (h2 : Spec.HierIdentity kl b) : a = b := by
  obtain ⟨m, x, e1, l1, n1⟩ := h1
  obtain ⟨m', x', e2, l2, n2⟩ := h2
  have e : (a ++ keyComp :: m) ++ [x] = (b ++ keyComp :: m') ++ [x'] := by
    have := e1.symm.trans e2; simpa using this
  have e := (List.append_inj' e rfl).1
  rcases List.append_eq_append_iff.1 e with ⟨t, h3, h4⟩ | ⟨t, h3, h4⟩
  · cases t with
    | nil => simp at h3; exact h3.symm
    | cons c t =>
      simp only [List.cons_append, List.cons.injEq] at h4
      exact absurd (by rw [h4.2]; simp) n1
  · cases t with
    | nil => simp at h3; exact h3
    | cons c t =>
      simp only [List.cons_append, List.cons.injEq] at h4
      exact absurd (by rw [h4.2]; simp) n2

theorem hierP_tot {env : REnv} (h : StdRegex env) (fuel : Nat) (w : List Comp) (hf : w.length < fuel) (h3 : 3 < fuel) (s : TS) :
    ((topOf env hierPTop).match env fuel w s).isSome :=
  Regex.top_tot h.dot (hierP_wf h) ⟨trivial, fun e => by simp [Q.max] at e, trivial⟩ hf
    (show 1 < fuel by omega)

theorem hierK_tot {env : REnv} (h : StdRegex env) (fuel : Nat) (w : List Comp) (hf : w.length < fuel) (h3 : 3 < fuel) (s : TS) :
    ((topOf env hierKTop).match env fuel w s).isSome :=
  Regex.top_tot h.dot (hierK_wf h) ⟨trivial, fun e => by simp [Q.max] at e, trivial⟩ hf
    (show 3 < fuel from h3)

end Ndn.Config
