import Verif.Regex.Compile
/- Matching: answers, captures, termination. -/
namespace Ndn.Regex
open Spec

variable {α : Type}

/-! ### Captures -/

theorem captured_nil (r : Nat) : captured ([] : Caps α) r = none := rfl

theorem captured_cons (x : Nat × List α) (a : Caps α) (r : Nat) :
    captured (x :: a) r = match captured a r with | some y => some y | none => if x.1 = r then some x.2 else none := by
  unfold captured
  rw [List.findRev?.eq_def]
  simp only
  cases List.findRev? (fun x => decide (x.1 = r)) a with
  | some y => rfl
  | none => by_cases h : x.1 = r <;> simp [h]

theorem captured_append (a b : Caps α) (r : Nat) :
    captured (a ++ b) r = match captured b r with | some y => some y | none => captured a r := by
  induction a with
  | nil => simp only [List.nil_append, captured_nil]; cases captured b r <;> rfl
  | cons x a ih =>
    rw [List.cons_append, captured_cons, ih, captured_cons]
    cases captured b r <;> rfl

theorem captured_mem {a : Caps α} {r : Nat} {x : List α} (h : captured a r = some x) : (r, x) ∈ a := by
  induction a with
  | nil => simp [captured_nil] at h
  | cons y a ih =>
    rw [captured_cons] at h
    cases hc : captured a r with
    | some z => rw [hc] at h ih; simp at h; rw [h] at ih; exact List.mem_cons_of_mem _ (ih rfl)
    | none =>
      rw [hc] at h
      simp only at h
      split at h
      · rename_i e; simp at h; rw [← e, ← h]; simp
      · simp at h

def Agree (s : Store α) (a : Caps α) : Prop := ∀ r x, captured a r = some x → s r = x

def Within (a : Caps α) (lo hi : Nat) : Prop := ∀ x ∈ a, lo ≤ x.1 ∧ x.1 < hi

theorem agree_nil (s : Store α) : Agree s [] := by intro r x h; simp [captured_nil] at h

theorem agree_append {s : Store α} {a b : Caps α} (h1 : Agree s a) (h2 : Agree s b) : Agree s (a ++ b) := by
  intro r x h
  rw [captured_append] at h
  cases hc : captured b r with
  | some y => rw [hc] at h; simp at h; exact h ▸ h2 r y hc
  | none => rw [hc] at h; exact h1 r x h

/-- Writes outside the groups of a list of captures do not matter. -/
theorem Agree.frame {s s' : Store α} {a : Caps α} {lo hi : Nat} (h : Agree s a) (hw : Within a lo hi)
    (hf : ∀ r, lo ≤ r → r < hi → s' r = s r) : Agree s' a := by
  intro r x hc
  have := hw _ (captured_mem hc)
  rw [hf r this.1 this.2]
  exact h r x hc

theorem putAll_out (env : Env α) (n : Nat) (xs : List Bytes) (s : Store α) (r : Nat) (h : r < n ∨ n + xs.length ≤ r) : putAll env n xs s r = s r := by
  induction xs generalizing n s with
  | nil => rfl
  | cons x xs ih =>
    unfold putAll
    simp only [List.length_cons] at h
    rw [ih (n + 1) _ (by omega)]
    unfold Store.put
    rw [if_neg (by omega)]

theorem putAll_in (env : Env α) (n : Nat) (xs : List Bytes) (s : Store α) (i : Nat) (x : Bytes) (h : xs[i]? = some x) :
    putAll env n xs s (n + i) = [env.lit x] := by
  induction xs generalizing n s i with
  | nil => simp at h
  | cons y xs ih =>
    unfold putAll
    cases i with
    | zero =>
      simp at h
      rw [putAll_out env (n + 1) xs _ _ (by omega)]
      simp [Store.put, h]
    | succ i =>
      simp at h
      have := ih (n + 1) (s.put n [env.lit y]) i h
      rw [← this]; congr 1; omega

theorem putAll_agree (env : Env α) (n : Nat) (xs : List Bytes) (s : Store α) :
    Agree (putAll env n xs s) (xs.zipIdx.map fun x => (n + x.2, [env.lit x.1])) := by
  intro r x h
  have hm := captured_mem h
  simp only [List.mem_map, Prod.mk.injEq, Prod.exists] at hm
  obtain ⟨b, i, h1, rfl, rfl⟩ := hm
  have h1 := List.mk_mem_zipIdx_iff_getElem?.1 h1
  exact putAll_in env n xs s i b h1

/-! ### Properties of a matching function -/

abbrev F (α : Type) := List α → Store α → Res α

/-- Answers are right. -/
def Exact (f : F α) (P : List α → Prop) : Prop := ∀ w s b s', f w s = some (b, s') → (b = true ↔ P w)

/-- Only some references change. -/
def Frame (f : F α) (lo hi : Nat) : Prop := ∀ w s b s', f w s = some (b, s') → ∀ r, ¬ (lo ≤ r ∧ r < hi) → s' r = s r

/-- The store after a match holds the captures of a way of matching. -/
def Capt (f : F α) (D : List α → Caps α → Prop) : Prop := ∀ w s s', f w s = some (true, s') → ∃ a, D w a ∧ Agree s' a

theorem tryLen_eq (f g : F α) (t : Nat) (w : List α) (s : Store α) : tryLen f g t w s =
    match f (w.take t) s with
    | none => none
    | some (b, s) =>
      match (if b then g (w.drop t) s else some (false, s)) with
      | none => none
      | some (true, s) => some (true, s)
      | some (false, s) =>
        match t with
        | 0 => some (false, s)
        | t + 1 => tryLen f g t w s := by
  cases t <;> (conv => lhs; unfold tryLen) <;> rfl

theorem tryLen_true {f g : F α} {t : Nat} {w : List α} {s s' : Store α} (h : tryLen f g t w s = some (true, s')) :
    ∃ k s1 s2, k ≤ t ∧ f (w.take k) s1 = some (true, s2) ∧ g (w.drop k) s2 = some (true, s') := by
  induction t generalizing s with
  | zero =>
    rw [tryLen_eq] at h
    split at h
    · simp at h
    · rename_i b s1 hf
      cases b with
      | false => simp at h
      | true =>
        simp only [if_true] at h
        split at h
        · simp at h
        · rename_i s2 hg; simp at h; subst h; exact ⟨0, s, s1, Nat.le_refl _, hf, hg⟩
        · simp at h
  | succ t ih =>
    rw [tryLen_eq] at h
    split at h
    · simp at h
    · rename_i b s1 hf
      have k : ∀ s, tryLen f g t w s = some (true, s') → ∃ k s1 s2, k ≤ t + 1 ∧ f (w.take k) s1 = some (true, s2) ∧ g (w.drop k) s2 = some (true, s') := by
        intro s h
        obtain ⟨k, a, b, h1, h2, h3⟩ := ih h
        exact ⟨k, a, b, by omega, h2, h3⟩
      cases b with
      | false => simp at h; exact k _ h
      | true =>
        simp only [if_true] at h
        split at h
        · simp at h
        · rename_i s2 hg; simp at h; subst h; exact ⟨t + 1, s, s1, Nat.le_refl _, hf, hg⟩
        · exact k _ h

theorem tryLen_false {f g : F α} {t : Nat} {w : List α} {s s' : Store α} (h : tryLen f g t w s = some (false, s')) :
    ∀ k, k ≤ t → ∃ s1 b s2, f (w.take k) s1 = some (b, s2) ∧ (b = true → ∃ s3, g (w.drop k) s2 = some (false, s3)) := by
  induction t generalizing s with
  | zero =>
    intro k hk
    have : k = 0 := by omega
    subst this
    rw [tryLen_eq] at h
    split at h
    · simp at h
    · rename_i b s1 hf
      refine ⟨s, b, s1, hf, ?_⟩
      rintro rfl
      simp only [if_true] at h
      split at h
      · simp at h
      · simp at h
      · rename_i s2 hg; exact ⟨s2, hg⟩
  | succ t ih =>
    intro k hk
    rw [tryLen_eq] at h
    split at h
    · simp at h
    · rename_i b s1 hf
      by_cases e : k = t + 1
      · subst e
        refine ⟨s, b, s1, hf, ?_⟩
        rintro rfl
        simp only [if_true] at h
        split at h
        · simp at h
        · simp at h
        · rename_i s2 hg; exact ⟨s2, hg⟩
      · split at h
        · simp at h
        · simp at h
        · exact ih h k (by omega)

theorem tryLen_frame {f g : F α} {lo hi : Nat} (hf : Frame f lo hi) (hg : Frame g lo hi) (t : Nat) : Frame (tryLen f g t) lo hi := by
  induction t with
  | zero =>
    intro w s b s' h r hr
    rw [tryLen_eq] at h
    split at h
    · simp at h
    · rename_i b1 s1 h1
      have e1 := hf _ _ _ _ h1 r hr
      split at h
      · simp at h
      · rename_i s2 h2; simp at h; obtain ⟨rfl, rfl⟩ := h
        cases b1 with
        | false => simp at h2
        | true => simp only [if_true] at h2; rw [hg _ _ _ _ h2 r hr, e1]
      · rename_i s2 h2; simp at h; obtain ⟨rfl, rfl⟩ := h
        cases b1 with
        | false => simp at h2; rw [← h2, e1]
        | true => simp only [if_true] at h2; rw [hg _ _ _ _ h2 r hr, e1]
  | succ t ih =>
    intro w s b s' h r hr
    rw [tryLen_eq] at h
    split at h
    · simp at h
    · rename_i b1 s1 h1
      have e1 := hf _ _ _ _ h1 r hr
      split at h
      · simp at h
      · rename_i s2 h2; simp at h; obtain ⟨rfl, rfl⟩ := h
        cases b1 with
        | false => simp at h2
        | true => simp only [if_true] at h2; rw [hg _ _ _ _ h2 r hr, e1]
      · rename_i s2 h2
        rw [ih _ _ _ _ h r hr]
        cases b1 with
        | false => simp at h2; rw [← h2, e1]
        | true => simp only [if_true] at h2; rw [hg _ _ _ _ h2 r hr, e1]

theorem take_drop_append (u v : List α) : (u ++ v).take u.length = u ∧ (u ++ v).drop u.length = v := by simp

theorem tryLen_exact {f g : F α} {P Q : List α → Prop} (hf : Exact f P) (hg : Exact g Q) :
    Exact (fun w => tryLen f g w.length w) (fun w => ∃ u v, w = u ++ v ∧ P u ∧ Q v) := by
  intro w s b s' h
  cases b with
  | true =>
    simp only [true_iff]
    obtain ⟨k, s1, s2, _, h1, h2⟩ := tryLen_true h
    exact ⟨w.take k, w.drop k, (List.take_append_drop k w).symm, (hf _ _ _ _ h1).1 rfl, (hg _ _ _ _ h2).1 rfl⟩
  | false =>
    simp only [Bool.false_eq_true, false_iff]
    rintro ⟨u, v, rfl, hu, hv⟩
    obtain ⟨s1, b, s2, h1, h2⟩ := tryLen_false h u.length (by simp)
    rw [(take_drop_append u v).1] at h1
    rw [(take_drop_append u v).2] at h2
    obtain ⟨s3, h3⟩ := h2 ((hf _ _ _ _ h1).2 hu)
    have := (hg _ _ _ _ h3).2 hv
    simp at this

/-- A word of a part for each half. -/
def Cat (D E : List α → Caps α → Prop) (w : List α) (a : Caps α) : Prop := ∃ u v b c, w = u ++ v ∧ a = b ++ c ∧ D u b ∧ E v c

theorem tryLen_capt {f g : F α} {D E : List α → Caps α → Prop} {lo hi lo' hi' : Nat} (hf : Capt f D) (hg : Capt g E)
    (hw : ∀ w a, D w a → Within a lo hi) (hfr : Frame g lo' hi') (hd : hi ≤ lo' ) (t : Nat) : Capt (tryLen f g t) (Cat D E) := by
  intro w s s' h
  obtain ⟨k, s1, s2, _, h1, h2⟩ := tryLen_true h
  obtain ⟨b, d1, a1⟩ := hf _ _ _ h1
  obtain ⟨c, d2, a2⟩ := hg _ _ _ h2
  refine ⟨b ++ c, ⟨w.take k, w.drop k, b, c, (List.take_append_drop k w).symm, rfl, d1, d2⟩, agree_append ?_ a2⟩
  exact a1.frame (hw _ _ d1) fun r r1 r2 => hfr _ _ _ _ h2 r (by omega)

/-! ### Repetition -/

/-- What a repetition accepts: the empty name is tried only against the lower bound. -/
def RepL (P : List α → Prop) (min : Nat) (max : Option Nat) (k : Nat) (w : List α) : Prop :=
  if w = [] then min ≤ k else ∃ j, Pow P j w ∧ min ≤ k + j ∧ ∀ m, max = some m → k + j ≤ m

theorem pow_nil_of {P : List α → Prop} {j : Nat} (h : Pow P (j + 1) []) : P [] := by
  obtain ⟨u, v, h1, h2, _⟩ := h
  have : u = [] := by
    have := congrArg List.length h1
    simp at this; exact List.length_eq_zero_iff.1 (by omega)
  rwa [this] at h2

theorem pow_nils {P : List α → Prop} (h : P []) (j : Nat) : Pow P j [] := by
  induction j with
  | zero => rfl
  | succ j ih => exact ⟨[], [], rfl, h, ih⟩

theorem pow_pad {P : List α → Prop} (h : P []) {w : List α} (hw : P w) (j : Nat) : Pow P (j + 1) w :=
  ⟨w, [], by simp, hw, pow_nils h j⟩

theorem full_iff (max : Option Nat) (k : Nat) : full max k = true ↔ ∃ m, max = some m ∧ m ≤ k := by
  unfold full
  cases max <;> simp

theorem repL_step {P : List α → Prop} {min : Nat} {max : Option Nat} {k : Nat} {w : List α} (hw : w ≠ []) (hf : ¬ full max k = true) :
    (∃ u v, w = u ++ v ∧ P u ∧ RepL P min max (k + 1) v) ↔ RepL P min max k w := by
  rw [full_iff] at hf
  constructor
  · rintro ⟨u, v, rfl, hu, hv⟩
    unfold RepL at hv ⊢
    rw [if_neg hw]
    split at hv
    · rename_i e
      subst e
      refine ⟨1, ⟨u, [], rfl, hu, rfl⟩, hv, fun m hm => ?_⟩
      rcases Nat.lt_or_ge k m with h | h
      · omega
      · exact absurd ⟨m, hm, h⟩ hf
    · obtain ⟨j, h1, h2, h3⟩ := hv
      refine ⟨j + 1, ⟨u, v, rfl, hu, h1⟩, by omega, fun m hm => ?_⟩
      have := h3 m hm; omega
  · intro h
    unfold RepL at h
    rw [if_neg hw] at h
    obtain ⟨j, h1, h2, h3⟩ := h
    cases j with
    | zero => exact absurd h1 hw
    | succ j =>
      have fin : ∀ u v, w = u ++ v → P u → Pow P j v → v ≠ [] → ∃ u v, w = u ++ v ∧ P u ∧ RepL P min max (k + 1) v := by
        intro u v e1 e2 e3 e4
        refine ⟨u, v, e1, e2, ?_⟩
        unfold RepL
        rw [if_neg e4]
        exact ⟨j, e3, by omega, fun m hm => by have := h3 m hm; omega⟩
      obtain ⟨u, v, e1, e2, e3⟩ := h1
      by_cases hv : v = []
      · subst hv
        rw [List.append_nil] at e1
        subst e1
        cases j with
        | zero =>
          refine ⟨w, [], by simp, e2, ?_⟩
          unfold RepL; rw [if_pos rfl]; omega
        | succ j => exact fin [] w rfl (pow_nil_of e3) (pow_pad (pow_nil_of e3) e2 j) hw
      · exact fin u v e1 e2 e3 hv

theorem repL_full {P : List α → Prop} {min : Nat} {max : Option Nat} {k : Nat} {w : List α} (hw : w ≠ []) (hf : full max k = true) :
    ¬ RepL P min max k w := by
  rw [full_iff] at hf
  obtain ⟨m, hm, hk⟩ := hf
  unfold RepL
  rw [if_neg hw]
  rintro ⟨j, h1, h2, h3⟩
  have := h3 m hm
  cases j with
  | zero => exact hw h1
  | succ j => omega

theorem repMatch_exact {f : F α} {P : List α → Prop} (hf : Exact f P) (min : Nat) (max : Option Nat) (fuel k : Nat) :
    Exact (repMatch f min max fuel k) (RepL P min max k) := by
  induction fuel generalizing k with
  | zero => intro w s b s' h; simp [repMatch] at h
  | succ fuel ih =>
    intro w s b s' h
    unfold repMatch at h
    split at h
    · rename_i hc
      simp at h
      rw [h.1]
      simp only [Bool.false_eq_true, false_iff]
      exact repL_full hc.1 hc.2
    · rename_i hc
      split at h
      · rename_i hw
        simp at h
        rw [← h.1]
        unfold RepL
        rw [if_pos hw]
        simp
      · rename_i hw
        have hnf : ¬ full max k = true := fun e => hc ⟨hw, e⟩
        rw [← repL_step hw hnf]
        exact tryLen_exact hf (ih (k + 1)) w s b s' h

theorem repMatch_frame {f : F α} {lo hi : Nat} (hf : Frame f lo hi) (min : Nat) (max : Option Nat) (fuel k : Nat) :
    Frame (repMatch f min max fuel k) lo hi := by
  induction fuel generalizing k with
  | zero => intro w s b s' h; simp [repMatch] at h
  | succ fuel ih =>
    intro w s b s' h r hr
    unfold repMatch at h
    split at h
    · simp at h; rw [h.2]
    · split at h
      · simp at h; rw [h.2]
      · exact tryLen_frame hf (ih (k + 1)) _ w s b s' h r hr

theorem repMatch_capt {f : F α} {D : List α → Caps α → Prop} (hf : Capt f D) (min : Nat) (max : Option Nat) (fuel k : Nat)
    {w : List α} (hw : w ≠ []) {s s' : Store α} (h : repMatch f min max fuel k w s = some (true, s')) :
    ∃ j a, PowD D (j + 1) w a ∧ Agree s' a ∧ min ≤ k + (j + 1) ∧ ∀ m, max = some m → k + (j + 1) ≤ m := by
  induction fuel generalizing k w s with
  | zero => simp [repMatch] at h
  | succ fuel ih =>
    unfold repMatch at h
    split at h
    · simp at h
    · rename_i hc
      have hnf : ¬ full max k = true := fun e => hc ⟨hw, e⟩
      rw [full_iff] at hnf
      obtain ⟨t, s1, s2, _, h1, h2⟩ := tryLen_true h
      obtain ⟨a, d1, a1⟩ := hf _ _ _ h1
      by_cases hv : w.drop t = []
      · rw [hv] at h2
        have hu : w.take t = w := by
          have := List.take_append_drop t w
          rwa [hv, List.append_nil] at this
        rw [hu] at d1
        cases fuel with
        | zero => simp [repMatch] at h2
        | succ fuel =>
          unfold repMatch at h2
          simp at h2
          obtain ⟨h2, rfl⟩ := h2
          refine ⟨0, a, d1, a1, h2, fun m hm => ?_⟩
          rcases Nat.lt_or_ge k m with h | h
          · omega
          · exact absurd ⟨m, hm, h⟩ hnf
      · obtain ⟨j, b, d2, a2, b1, b2⟩ := ih (k + 1) hv h2
        refine ⟨j + 1, b, ⟨w.take t, w.drop t, a, (List.take_append_drop t w).symm, d1, d2⟩, a2, by omega, fun m hm => ?_⟩
        have := b2 m hm; omega

/-! ### Components -/

theorem cm_match (env : Env α) (n : Nat) (re : Bytes) (c : α) (s : Store α) :
    (((cmOf env n re).match env c s).1 = true ↔ Fits env re c) ∧
    (((cmOf env n re).match env c s).1 = true → ∃ a, compCaps env n re c a ∧ Agree ((cmOf env n re).match env c s).2 a) ∧
    (((cmOf env n re).match env c s).1 = false → ((cmOf env n re).match env c s).2 = s) ∧
    ∀ r, ¬ (n ≤ r ∧ r < n + marksOf env re) → ((cmOf env n re).match env c s).2 r = s r := by
  unfold CM.match cmOf Fits compCaps
  simp only
  split
  · rename_i h
    simp only [h, true_or]
    refine ⟨trivial, ?_, by simp, by simp⟩
    intro _; exact ⟨[], Or.inl ⟨trivial, rfl⟩, agree_nil _⟩
  · rename_i h
    cases he : env.eval re (env.uri c) with
    | none => simp [h]
    | some gs =>
      simp only [h, false_or, Option.isSome_some]
      refine ⟨trivial, ?_, by simp, ?_⟩
      · intro _
        exact ⟨_, Or.inr ⟨h, gs, rfl, rfl⟩, putAll_agree env n _ s⟩
      · intro r hr
        apply putAll_out
        have : (gs.take (marksOf env re)).length ≤ marksOf env re := by simp; omega
        omega

theorem compCaps_within (env : Env α) {n : Nat} {re : Bytes} {c : α} {a : Caps α} (h : compCaps env n re c a) : Within a n (n + marksOf env re) := by
  intro x hx
  rcases h with ⟨_, rfl⟩ | ⟨_, gs, _, rfl⟩
  · simp at hx
  · simp only [List.mem_map, Prod.exists] at hx
    obtain ⟨b, i, h1, rfl⟩ := hx
    have h1 := List.mk_mem_zipIdx_iff_getElem?.1 h1
    have h2 := (List.getElem?_eq_some_iff.1 h1).1
    have : (gs.take (marksOf env re)).length ≤ marksOf env re := by simp; omega
    constructor
    · simp
    · simp only; omega

theorem any_match (env : Env α) (n : Nat) (res : List Bytes) (c : α) (s : Store α) :
    ((anyMatch env c (cmsOf env n res) s).1 = true ↔ ∃ re ∈ res, Fits env re c) ∧
    (∃ a, setCaps env n res c a ∧ Agree (anyMatch env c (cmsOf env n res) s).2 a) ∧
    ∀ r, ¬ (n ≤ r ∧ r < n + (res.map (marksOf env)).sum) → (anyMatch env c (cmsOf env n res) s).2 r = s r := by
  induction res generalizing n s with
  | nil =>
    refine ⟨by simp [cmsOf, anyMatch], ⟨[], rfl, agree_nil _⟩, ?_⟩
    intro r _; rfl
  | cons re res ih =>
    obtain ⟨c1, c2, c3, c4⟩ := cm_match env n re c s
    unfold cmsOf anyMatch
    simp only [List.map_cons, List.sum_cons]
    split
    · rename_i h
      refine ⟨?_, ?_, ?_⟩
      · simp only [true_iff]; exact ⟨re, by simp, c1.1 h⟩
      · obtain ⟨a, h1, h2⟩ := c2 h
        exact ⟨a, Or.inl ⟨c1.1 h, h1⟩, h2⟩
      · intro r hr; exact c4 r (by omega)
    · rename_i h
      have hs := c3 (by simpa using h)
      rw [hs]
      have hn : ¬ Fits env re c := fun e => h (c1.2 e)
      obtain ⟨i1, ⟨a, i2, i3⟩, i4⟩ := ih (n + marksOf env re) s
      refine ⟨?_, ⟨a, Or.inr ⟨hn, i2⟩, i3⟩, fun r hr => i4 r (by omega)⟩
      rw [i1]
      constructor
      · rintro ⟨x, hx, hf⟩; exact ⟨x, by simp [hx], hf⟩
      · rintro ⟨x, hx, hf⟩
        rcases List.mem_cons.1 hx with rfl | hx
        · exact absurd hf hn
        · exact ⟨x, hx, hf⟩

theorem setCaps_within (env : Env α) {n : Nat} {res : List Bytes} {c : α} {a : Caps α} (h : setCaps env n res c a) :
    Within a n (n + (res.map (marksOf env)).sum) := by
  induction res generalizing n with
  | nil => unfold setCaps at h; subst h; intro x hx; simp at hx
  | cons re res ih =>
    simp only [List.map_cons, List.sum_cons]
    rcases h with ⟨_, h⟩ | ⟨_, h⟩
    · intro x hx; have := compCaps_within env h x hx; omega
    · intro x hx; have := ih h x hx; omega

/-- The words and captures of a set. -/
def SetP (env : Env α) (neg : Bool) (res : List Bytes) (x : List α) : Prop := ∃ c, x = [c] ∧ ((∃ re ∈ res, Fits env re c) ↔ neg = false)
def SetD (env : Env α) (neg : Bool) (res : List Bytes) (n : Nat) (x : List α) (d : Caps α) : Prop :=
  ∃ y, x = [y] ∧ ((∃ re ∈ res, Fits env re y) ↔ neg = false) ∧ setCaps env n res y d

theorem matchSet (env : Env α) (fuel n : Nat) (neg : Bool) (res : List Bytes) :
    Exact (matchM env fuel (.set (!neg) (cmsOf env n res))) (SetP env neg res) ∧
    Frame (matchM env fuel (.set (!neg) (cmsOf env n res))) n (n + (res.map (marksOf env)).sum) ∧
    Capt (matchM env fuel (.set (!neg) (cmsOf env n res))) (SetD env neg res n) := by
  have key : ∀ w s b s', matchM env fuel (.set (!neg) (cmsOf env n res)) w s = some (b, s') →
      (∃ c, w = [c] ∧ b = (if !neg then (anyMatch env c (cmsOf env n res) s).1 else !(anyMatch env c (cmsOf env n res) s).1) ∧
        s' = (anyMatch env c (cmsOf env n res) s).2) ∨ (b = false ∧ s' = s ∧ ∀ c, w ≠ [c]) := by
    intro w s b s' h
    unfold matchM at h
    split at h
    · rename_i c
      simp at h
      exact Or.inl ⟨c, rfl, by simp [h.1.symm], h.2.symm⟩
    · rename_i hw
      simp at h
      exact Or.inr ⟨h.1.symm ▸ rfl, h.2.symm, hw⟩
  have ans : ∀ c s, (if !neg then (anyMatch env c (cmsOf env n res) s).1 else !(anyMatch env c (cmsOf env n res) s).1) = true ↔
      ((∃ re ∈ res, Fits env re c) ↔ neg = false) := by
    intro c s
    have := (any_match env n res c s).1
    rw [← this]
    cases neg <;> cases (anyMatch env c (cmsOf env n res) s).1 <;> simp
  refine ⟨?_, ?_, ?_⟩
  · intro w s b s' h
    rcases key w s b s' h with ⟨c, rfl, rfl, rfl⟩ | ⟨rfl, rfl, hw⟩
    · rw [ans]
      constructor
      · intro h; exact ⟨c, rfl, h⟩
      · rintro ⟨c', e, h⟩; simp at e; exact e ▸ h
    · simp only [Bool.false_eq_true, false_iff]
      rintro ⟨c, e, _⟩; exact hw c e
  · intro w s b s' h r hr
    rcases key w s b s' h with ⟨c, rfl, rfl, rfl⟩ | ⟨rfl, rfl, hw⟩
    · exact (any_match env n res c s).2.2 r hr
    · rfl
  · intro w s s' h
    rcases key w s _ s' h with ⟨c, rfl, hb, rfl⟩ | ⟨h, _, _⟩
    · obtain ⟨a, h1, h2⟩ := (any_match env n res c s).2.1
      exact ⟨a, ⟨c, rfl, (ans c s).1 hb.symm, h1⟩, h2⟩
    · simp at h

theorem matchComp (env : Env α) (n : Nat) (re : Bytes) : M.set true [cmOf env n re] = .set (!false) (cmsOf env n [re]) := rfl

/-! ### Repetition of a matcher -/

/-- What the code accepts for a repeated part. -/
def RepP (P : List α → Prop) (q : Q) (u : List α) : Prop := if u = [] then q.min = 0 else ∃ k, q.Allows k ∧ Pow P k u

def RepD (D : List α → Caps α → Prop) (q : Q) (u : List α) (a : Caps α) : Prop := ∃ k, q.Allows k ∧ PowD D k u a

theorem q_bounds {q : Q} (h : q.WF) : ∀ m, q.max = some m → q.min ≤ m := by
  cases q with
  | between n m => intro k hk; simp [Q.max] at hk; subst hk; exact h.2.2
  | _ => simp [Q.max, Q.min]

theorem matchRep (env : Env α) (fuel : Nat) (m : M) {P : List α → Prop} {D : List α → Caps α → Prop} {lo hi : Nat} {q : Q} (hq : q.WF)
    (h1 : Exact (matchM env fuel m) P) (h2 : Frame (matchM env fuel m) lo hi) (h3 : Capt (matchM env fuel m) D) :
    Exact (matchM env fuel (.rep m q.min q.max)) (RepP P q) ∧ Frame (matchM env fuel (.rep m q.min q.max)) lo hi ∧
    Capt (matchM env fuel (.rep m q.min q.max)) (RepD D q) := by
  refine ⟨?_, ?_, ?_⟩
  · intro w s b s' h
    unfold matchM at h
    unfold RepP
    split at h
    · rename_i hc
      simp at h
      rw [if_pos hc.2, ← h.1]; simp [hc.1]
    · rename_i hc
      have := repMatch_exact h1 q.min q.max fuel 0 w s b s' h
      rw [this]
      unfold RepL Q.Allows
      split
      · omega
      · simp only [Nat.zero_add]
        constructor
        · rintro ⟨j, a, b, c⟩; exact ⟨j, ⟨b, c⟩, a⟩
        · rintro ⟨j, ⟨b, c⟩, a⟩; exact ⟨j, a, b, c⟩
  · intro w s b s' h r hr
    unfold matchM at h
    split at h
    · simp at h; rw [h.2]
    · exact repMatch_frame h2 _ _ _ _ w s b s' h r hr
  · intro w s s' h
    unfold matchM at h
    split at h
    · rename_i hc
      simp at h
      exact ⟨[], ⟨0, ⟨by omega, fun m _ => by omega⟩, ⟨hc.2, rfl⟩⟩, agree_nil _⟩
    · rename_i hc
      by_cases hw : w = []
      · exfalso
        have := (repMatch_exact h1 q.min q.max fuel 0 w s true s' h).1 rfl
        unfold RepL at this
        rw [if_pos hw] at this
        exact hc ⟨by omega, hw⟩
      · obtain ⟨j, a, d, e, b1, b2⟩ := repMatch_capt h3 q.min q.max fuel 0 hw h
        exact ⟨a, ⟨j + 1, ⟨by omega, fun m hm => by have := b2 m hm; omega⟩, d⟩, e⟩

theorem powD_within {D : List α → Caps α → Prop} {lo hi : Nat} (h : ∀ w a, D w a → Within a lo hi) (k : Nat) (w : List α) (a : Caps α)
    (hp : PowD D k w a) : Within a lo hi := by
  induction k generalizing w with
  | zero => obtain ⟨_, rfl⟩ := hp; intro x hx; simp at hx
  | succ k ih =>
    cases k with
    | zero => exact h _ _ hp
    | succ k => obtain ⟨u, v, b, _, _, h2⟩ := hp; exact ih v h2

/-! ### Groups -/

def GroupD (D : List α → Caps α → Prop) (n : Nat) (x : List α) (d : Caps α) : Prop := ∃ d', d = d' ++ [(n, x)] ∧ D x d'

theorem matchGroup (env : Env α) (fuel n : Nat) (m : M) {P : List α → Prop} {D : List α → Caps α → Prop} {hi : Nat}
    (hhi : n + 1 ≤ hi) (hw : ∀ w a, D w a → Within a (n + 1) hi)
    (h1 : Exact (matchM env fuel m) P) (h2 : Frame (matchM env fuel m) (n + 1) hi) (h3 : Capt (matchM env fuel m) D) :
    Exact (matchM env fuel (.group n m)) P ∧ Frame (matchM env fuel (.group n m)) n hi ∧
    Capt (matchM env fuel (.group n m)) (GroupD D n) := by
  have ge : Exact (fun (w : List α) (s : Store α) => some (w.isEmpty, s)) (fun w => w = []) := by
    intro w s b s' h; simp at h; rw [← h.1]; simp
  have gf : ∀ lo hi, Frame (fun (w : List α) (s : Store α) => some (w.isEmpty, s)) lo hi := by
    intro lo hi w s b s' h r hr; simp at h; rw [h.2]
  have gc : Capt (fun (w : List α) (s : Store α) => some (w.isEmpty, s)) (fun w a => w = [] ∧ a = []) := by
    intro w s s' h; simp at h; exact ⟨[], ⟨h.1, rfl⟩, agree_nil _⟩
  refine ⟨?_, ?_, ?_⟩
  · intro w s b s' h
    unfold matchM at h
    have key : ∀ b s1, tryLen (fun w s => matchM env fuel m w s) (fun w s => some (w.isEmpty, s)) w.length w (s.put n []) = some (b, s1) → (b = true ↔ P w) := by
      intro b s1 h
      have := tryLen_exact h1 ge w _ b s1 h
      rw [this]
      constructor
      · rintro ⟨u, v, rfl, hu, rfl⟩; simpa using hu
      · intro hp; exact ⟨w, [], by simp, hp, rfl⟩
    split at h
    · simp at h
    · rename_i s1 h4; simp at h; rw [← key _ _ h4]; simp [h.1]
    · rename_i s1 h4; simp at h; rw [← key _ _ h4]; simp [h.1]
  · intro w s b s' h r hr
    unfold matchM at h
    have key : ∀ b s1, tryLen (fun w s => matchM env fuel m w s) (fun w s => some (w.isEmpty, s)) w.length w (s.put n []) = some (b, s1) → s1 r = s r := by
      intro b s1 h
      have := tryLen_frame h2 (gf _ _) _ w _ b s1 h r (by omega)
      rw [this]
      unfold Store.put
      rw [if_neg (by omega)]
    split at h
    · simp at h
    · rename_i s1 h4
      simp at h
      rw [← h.2]
      unfold Store.put
      rw [if_neg (by omega)]
      exact key _ _ h4
    · rename_i s1 h4; simp at h; rw [← h.2]; exact key _ _ h4
  · intro w s s' h
    unfold matchM at h
    split at h
    · simp at h
    · rename_i s1 h4
      simp at h
      subst h
      obtain ⟨a, ⟨u, v, b, c, rfl, rfl, hd, rfl, rfl⟩, ha⟩ := tryLen_capt h3 gc hw (gf hi hi) (Nat.le_refl _) _ _ _ _ h4
      simp only [List.append_nil] at ha ⊢
      refine ⟨b ++ [(n, u)], ⟨b, rfl, hd⟩, agree_append ?_ ?_⟩
      · exact ha.frame (hw _ _ hd) fun r r1 r2 => by unfold Store.put; rw [if_neg (by omega)]
      · intro r x hc
        have := captured_mem hc
        simp at this
        rw [this.1, this.2]; simp [Store.put]
    · simp at h

/-! ### Whole expressions -/

/-- What the code accepts. -/
def CLang (env : Env α) : Pat → List α → Prop
  | .nil, w => w = []
  | .comp re q rest, w => ∃ u v, w = u ++ v ∧ RepP (SetP env false [re]) q u ∧ CLang env rest v
  | .set neg res q rest, w => ∃ u v, w = u ++ v ∧ RepP (SetP env neg res) q u ∧ CLang env rest v
  | .group inner q rest, w => ∃ u v, w = u ++ v ∧ (if q = .one then CLang env inner u else RepP (CLang env inner) q u) ∧ CLang env rest v

theorem compCaps_setCaps (env : Env α) (n : Nat) (re : Bytes) (x : List α) (d : Caps α) :
    SetD env false [re] n x d ↔ ∃ y, x = [y] ∧ Fits env re y ∧ compCaps env n re y d := by
  unfold SetD setCaps
  simp only [List.mem_singleton, exists_eq_left]
  constructor
  · rintro ⟨y, h1, h2, h3⟩
    have h2 : Fits env re y := h2.2 trivial
    rcases h3 with h3 | h3
    · exact ⟨y, h1, h2, h3.2⟩
    · exact absurd h2 h3.1
  · rintro ⟨y, h1, h2, h3⟩
    exact ⟨y, h1, ⟨fun _ => trivial, fun _ => h2⟩, Or.inl ⟨h2, h3⟩⟩

theorem way_within (env : Env α) (p : Pat) (n : Nat) (w : List α) (a : Caps α) (h : Way env p n w a) : Within a n (n + p.groups env) := by
  induction p generalizing n w a with
  | nil => obtain ⟨_, rfl⟩ := h; intro x hx; simp at hx
  | comp re q rest ih =>
    obtain ⟨u, v, k, b, c, rfl, rfl, _, h1, h2⟩ := h
    have e1 := powD_within (lo := n) (hi := n + marksOf env re) (fun w a ⟨y, _, _, h⟩ => compCaps_within env h) k u b h1
    have e2 := ih _ _ _ h2
    intro x hx
    unfold Pat.groups
    rcases List.mem_append.1 hx with hx | hx
    · have := e1 x hx; omega
    · have := e2 x hx; omega
  | set neg res q rest ih =>
    obtain ⟨u, v, k, b, c, rfl, rfl, _, h1, h2⟩ := h
    have e1 := powD_within (lo := n) (hi := n + (res.map (marksOf env)).sum) (fun w a ⟨y, _, _, h⟩ => setCaps_within env h) k u b h1
    have e2 := ih _ _ _ h2
    intro x hx
    unfold Pat.groups
    rcases List.mem_append.1 hx with hx | hx
    · have := e1 x hx; omega
    · have := e2 x hx; omega
  | group inner q rest ihi ih =>
    obtain ⟨u, v, k, b, c, rfl, rfl, _, h1, h2⟩ := h
    have e1 := powD_within (lo := n) (hi := n + 1 + inner.groups env) (by
      rintro w a ⟨d, rfl, h⟩ x hx
      have := ihi _ _ _ h
      rcases List.mem_append.1 hx with hx | hx
      · have := this x hx; omega
      · simp at hx; subst hx; simp only; omega) k u b h1
    have e2 := ih _ _ _ h2
    intro x hx
    unfold Pat.groups
    rcases List.mem_append.1 hx with hx | hx
    · have := e1 x hx; omega
    · have := e2 x hx; omega

theorem Exact.congr {f : F α} {P Q : List α → Prop} (h : Exact f P) (e : ∀ w, P w ↔ Q w) : Exact f Q :=
  fun w s b s' hh => (h w s b s' hh).trans (e w)

theorem Capt.weaken {f : F α} {D E : List α → Caps α → Prop} (h : Capt f D) (e : ∀ w a, D w a → E w a) : Capt f E :=
  fun w s s' hh => by obtain ⟨a, h1, h2⟩ := h w s s' hh; exact ⟨a, e w a h1, h2⟩

theorem Frame.mono {f : F α} {lo hi lo' hi' : Nat} (h : Frame f lo hi) (h1 : lo' ≤ lo) (h2 : hi ≤ hi') : Frame f lo' hi' :=
  fun w s b s' hh r hr => h w s b s' hh r (by omega)

/-- Sequencing. -/
theorem matchCons (env : Env α) (fuel : Nat) (m r : M) {P Q : List α → Prop} {D E : List α → Caps α → Prop} {lo mid hi : Nat}
    (hlm : lo ≤ mid) (hmh : mid ≤ hi)
    (h1 : Exact (matchM env fuel m) P ∧ Frame (matchM env fuel m) lo mid ∧ Capt (matchM env fuel m) D) (hw : ∀ w a, D w a → Within a lo mid)
    (h2 : Exact (matchM env fuel r) Q ∧ Frame (matchM env fuel r) mid hi ∧ Capt (matchM env fuel r) E) :
    Exact (matchM env fuel (.cons m r)) (fun w => ∃ u v, w = u ++ v ∧ P u ∧ Q v) ∧ Frame (matchM env fuel (.cons m r)) lo hi ∧
    Capt (matchM env fuel (.cons m r)) (Cat D E) := by
  have e : ∀ w s, matchM env fuel (.cons m r) w s = tryLen (matchM env fuel m) (matchM env fuel r) w.length w s := by
    intro w s; unfold matchM; rfl
  refine ⟨?_, ?_, ?_⟩
  · intro w s b s' h; rw [e] at h; exact tryLen_exact h1.1 h2.1 w s b s' h
  · intro w s b s' h; rw [e] at h
    exact tryLen_frame (h1.2.1.mono (Nat.le_refl _) hmh) (h2.2.1.mono hlm (Nat.le_refl _)) _ w s b s' h
  · intro w s s' h; rw [e] at h
    exact tryLen_capt h1.2.2 h2.2.2 hw h2.2.1 (Nat.le_refl _) _ w s s' h

theorem match_toM (env : Env α) (fuel : Nat) (p : Pat) (hp : p.WF env) (n : Nat) :
    Exact (matchM env fuel (toM env p n)) (CLang env p) ∧ Frame (matchM env fuel (toM env p n)) n (n + p.groups env) ∧
    Capt (matchM env fuel (toM env p n)) (Way env p n) := by
  induction p generalizing n with
  | nil =>
    refine ⟨?_, ?_, ?_⟩
    · intro w s b s' h; simp [toM, matchM] at h; rw [← h.1]; simp [CLang]
    · intro w s b s' h r _; simp [toM, matchM] at h; rw [h.2]
    · intro w s s' h; simp [toM, matchM] at h; exact ⟨[], ⟨h.1, rfl⟩, agree_nil _⟩
  | comp re q rest ih =>
    obtain ⟨h1, h2, h3⟩ := hp
    have hs := matchSet env fuel n false [re]
    rw [List.map_singleton, List.sum_singleton] at hs
    have hr := matchRep env fuel _ h2 hs.1 hs.2.1 hs.2.2
    have hc := matchCons env fuel _ _ (by omega) (by omega : n + marksOf env re ≤ n + marksOf env re + rest.groups env) hr
      (by
        rintro w a ⟨k, _, h⟩
        refine powD_within ?_ k w a h
        rintro w a ⟨y, _, _, h⟩
        have := setCaps_within env h
        simpa using this) (ih h3 (n + marksOf env re))
    refine ⟨hc.1, by have := hc.2.1; rwa [Nat.add_assoc] at this, hc.2.2.weaken ?_⟩
    rintro w a ⟨u, v, b, c, e1, e2, ⟨k, k1, k2⟩, hway⟩
    refine ⟨u, v, k, b, c, e1, e2, k1, ?_, hway⟩
    have : SetD env false [re] n = fun x d => ∃ y, x = [y] ∧ Fits env re y ∧ compCaps env n re y d := by
      funext x d; exact propext (compCaps_setCaps env n re x d)
    rwa [this] at k2
  | set neg res q rest ih =>
    obtain ⟨h1, _, h2, h3⟩ := hp
    have hs := matchSet env fuel n neg res
    have hr := matchRep env fuel _ h2 hs.1 hs.2.1 hs.2.2
    have hc := matchCons env fuel _ _ (by omega) (by omega : n + (res.map (marksOf env)).sum ≤ n + (res.map (marksOf env)).sum + rest.groups env) hr
      (by
        rintro w a ⟨k, _, h⟩
        refine powD_within ?_ k w a h
        rintro w a ⟨y, _, _, h⟩
        exact setCaps_within env h) (ih h3 _)
    refine ⟨hc.1, by have := hc.2.1; rwa [Nat.add_assoc] at this, hc.2.2.weaken ?_⟩
    rintro w a ⟨u, v, b, c, e1, e2, ⟨k, k1, k2⟩, hway⟩
    exact ⟨u, v, k, b, c, e1, e2, k1, k2, hway⟩
  | group inner q rest ihi ih =>
    obtain ⟨h1, _, h2, h3⟩ := hp
    have hi := ihi h1 (n + 1)
    have hg := matchGroup env fuel n _ (by omega) (fun w a => way_within env inner (n + 1) w a) hi.1 hi.2.1 hi.2.2
    have gw : ∀ w a, GroupD (Way env inner (n + 1)) n w a → Within a n (n + 1 + inner.groups env) := by
      rintro w a ⟨d, rfl, h⟩ x hx
      have := way_within env _ _ _ _ h
      rcases List.mem_append.1 hx with hx | hx
      · have := this x hx; omega
      · simp at hx; subst hx; simp only; omega
    have eg : n + 1 + inner.groups env + rest.groups env = n + (Pat.group inner q rest).groups env := by simp only [Pat.groups]; omega
    unfold toM
    by_cases hq : q = .one
    · rw [if_pos hq]
      have hc := matchCons env fuel _ _ (by omega) (by omega : n + 1 + inner.groups env ≤ n + 1 + inner.groups env + rest.groups env) hg gw (ih h3 _)
      refine ⟨hc.1.congr ?_, by have := hc.2.1; rwa [eg] at this, hc.2.2.weaken ?_⟩
      · intro w; conv => rhs; unfold CLang
        simp only [hq, if_true]
      · rintro w a ⟨u, v, b, c, e1, e2, k2, hway⟩
        subst hq
        exact ⟨u, v, 1, b, c, e1, e2, ⟨Nat.le_refl _, fun m hm => by simp [Q.max] at hm; omega⟩, k2, hway⟩
    · rw [if_neg hq]
      have hr := matchRep env fuel _ h2 hg.1 hg.2.1 hg.2.2
      have hc := matchCons env fuel _ _ (by omega) (by omega : n + 1 + inner.groups env ≤ n + 1 + inner.groups env + rest.groups env) hr
        (by rintro w a ⟨k, _, h⟩; exact powD_within gw k w a h) (ih h3 _)
      refine ⟨hc.1.congr ?_, by have := hc.2.1; rwa [eg] at this, hc.2.2.weaken ?_⟩
      · intro w; conv => rhs; unfold CLang
        simp only [hq, if_false]
      · rintro w a ⟨u, v, b, c, e1, e2, ⟨k, k1, k2⟩, hway⟩
        exact ⟨u, v, k, b, c, e1, e2, k1, k2, hway⟩

end Ndn.Regex
