import Verif.Regex.Match
/- The languages, termination, anchors, expansion. -/
namespace Ndn.Regex
open Spec

variable {α : Type}

/-! ### The accepted names and the language -/

theorem pow_mono {P Q : List α → Prop} (h : ∀ w, P w → Q w) (k : Nat) (w : List α) (hp : Pow P k w) : Pow Q k w := by
  induction k generalizing w with
  | zero => exact hp
  | succ k ih => obtain ⟨u, v, e, h1, h2⟩ := hp; exact ⟨u, v, e, h u h1, ih v h2⟩

theorem repP_pow {P : List α → Prop} {q : Q} {u : List α} (h : RepP P q u) : ∃ k, q.Allows k ∧ Pow P k u := by
  unfold RepP at h
  split at h
  · rename_i e; exact ⟨0, ⟨by omega, fun m _ => by omega⟩, e⟩
  · exact h

theorem setP_comp (env : Env α) (re : Bytes) : SetP env false [re] = fun x : List α => ∃ c, x = [c] ∧ Fits env re c := by
  funext x; apply propext
  unfold SetP
  constructor
  · rintro ⟨c, h1, h2⟩
    obtain ⟨r, hr, hf⟩ := h2.2 rfl
    simp at hr; subst hr
    exact ⟨c, h1, hf⟩
  · rintro ⟨c, h1, h2⟩; exact ⟨c, h1, fun _ => rfl, fun _ => ⟨re, by simp, h2⟩⟩

/-- Everything accepted is in the language. -/
theorem clang_lang (env : Env α) (p : Pat) (w : List α) (h : CLang env p w) : Lang env p w := by
  induction p generalizing w with
  | nil => exact h
  | comp re q rest ih =>
    obtain ⟨u, v, e, h1, h2⟩ := h
    obtain ⟨k, k1, k2⟩ := repP_pow h1
    rw [setP_comp] at k2
    exact ⟨u, v, k, e, k1, k2, ih v h2⟩
  | set neg res q rest ih =>
    obtain ⟨u, v, e, h1, h2⟩ := h
    obtain ⟨k, k1, k2⟩ := repP_pow h1
    exact ⟨u, v, k, e, k1, k2, ih v h2⟩
  | group inner q rest ihi ih =>
    obtain ⟨u, v, e, h1, h2⟩ := h
    split at h1
    · rename_i hq
      subst hq
      exact ⟨u, v, 1, e, ⟨Nat.le_refl _, fun m hm => by simp [Q.max] at hm; omega⟩, ⟨u, [], by simp, ihi u h1, rfl⟩, ih v h2⟩
    · obtain ⟨k, k1, k2⟩ := repP_pow h1
      exact ⟨u, v, k, e, k1, pow_mono ihi k u k2, ih v h2⟩

theorem pow_repP {P : List α → Prop} {q : Q} {u : List α} {k : Nat} (h : q.min = 0 ∨ ¬ P []) (h1 : q.Allows k) (h2 : Pow P k u) : RepP P q u := by
  unfold RepP
  split
  · rename_i e
    rcases h with h | h
    · exact h
    · cases k with
      | zero => have := h1.1; omega
      | succ k => subst e; exact absurd (pow_nil_of h2) h
  · exact ⟨k, h1, h2⟩

theorem setP_nil (env : Env α) (neg : Bool) (res : List Bytes) : ¬ SetP env neg res [] := by rintro ⟨c, h, _⟩; simp at h

theorem lang_clang (env : Env α) (p : Pat) (hs : p.Solid env) (w : List α) (h : Lang env p w) : CLang env p w := by
  induction p generalizing w with
  | nil => exact h
  | comp re q rest ih =>
    obtain ⟨u, v, k, e, k1, k2, h2⟩ := h
    refine ⟨u, v, e, pow_repP (Or.inr (setP_nil env false [re])) k1 ?_, ih hs v h2⟩
    rw [setP_comp]; exact k2
  | set neg res q rest ih =>
    obtain ⟨u, v, k, e, k1, k2, h2⟩ := h
    exact ⟨u, v, e, pow_repP (Or.inr (setP_nil env neg res)) k1 k2, ih hs v h2⟩
  | group inner q rest ihi ih =>
    obtain ⟨hs1, hs2, hs3⟩ := hs
    obtain ⟨u, v, k, e, k1, k2, h2⟩ := h
    refine ⟨u, v, e, ?_, ih hs3 v h2⟩
    have k2 := pow_mono (ihi hs1) k u k2
    split
    · rename_i hq
      subst hq
      have hk : k = 1 := by
        have a := k1.1; have b := k1.2 1 rfl
        simp only [Q.min] at a; omega
      subst hk
      obtain ⟨x, y, rfl, hx, hy⟩ := k2
      rw [show y = [] from hy, List.append_nil]; exact hx
    · rename_i hq
      refine pow_repP ?_ k1 k2
      rcases hs2 with h | h | h
      · exact absurd h hq
      · exact Or.inl h
      · exact Or.inr fun hc => h (clang_lang env inner [] hc)

/-! ### Termination -/

def Tot (f : F α) (w : List α) : Prop := ∀ s, (f w s).isSome

theorem tryLen_tot {f g : F α} {t : Nat} {w : List α} (hf : ∀ k, k ≤ t → Tot f (w.take k))
    (hg : ∀ k, k ≤ t → (∃ s s', f (w.take k) s = some (true, s')) → Tot g (w.drop k)) : Tot (tryLen f g t) w := by
  induction t with
  | zero =>
    intro s
    rw [tryLen_eq]
    have h1 := hf 0 (Nat.le_refl _) s
    cases he : f (w.take 0) s with
    | none => rw [he] at h1; simp at h1
    | some x =>
      obtain ⟨b, s1⟩ := x
      cases b with
      | false => simp
      | true =>
        have h2 := hg 0 (Nat.le_refl _) ⟨s, s1, he⟩ s1
        simp only [if_true]
        cases hge : g (w.drop 0) s1 with
        | none => rw [hge] at h2; simp at h2
        | some y => obtain ⟨c, s2⟩ := y; cases c <;> simp
  | succ t ih =>
    intro s
    have ih := ih (fun k hk => hf k (by omega)) (fun k hk => hg k (by omega))
    rw [tryLen_eq]
    have h1 := hf (t + 1) (Nat.le_refl _) s
    cases he : f (w.take (t + 1)) s with
    | none => rw [he] at h1; simp at h1
    | some x =>
      obtain ⟨b, s1⟩ := x
      cases b with
      | false => simp; exact ih s1
      | true =>
        have h2 := hg (t + 1) (Nat.le_refl _) ⟨s, s1, he⟩ s1
        simp only [if_true]
        cases hge : g (w.drop (t + 1)) s1 with
        | none => rw [hge] at h2; simp at h2
        | some y => obtain ⟨c, s2⟩ := y; cases c <;> simp; exact ih s2

theorem repMatch_tot_pos {f : F α} (min : Nat) (max : Option Nat) (L : Nat) (hf : ∀ w, w.length ≤ L → Tot f w)
    (hn : ∀ s s', f [] s ≠ some (true, s')) (fuel k : Nat) (w : List α) (hl : w.length ≤ L) (hfu : w.length < fuel) :
    Tot (repMatch f min max fuel k) w := by
  induction fuel generalizing k w with
  | zero => omega
  | succ fuel ih =>
    intro s
    unfold repMatch
    split
    · rfl
    · split
      · rfl
      · rename_i hw
        have hpos : 0 < w.length := List.length_pos_iff.2 hw
        apply tryLen_tot
        · intro k hk; exact hf _ (by simp; omega)
        · rintro j hj ⟨s, s', hs⟩
          apply ih
          · simp; omega
          · cases j with
            | zero => simp at hs; exact absurd hs (hn s s')
            | succ j => simp; omega

theorem repMatch_tot_max {f : F α} (min m : Nat) (L : Nat) (hf : ∀ w, w.length ≤ L → Tot f w) (fuel k : Nat) (w : List α)
    (hl : w.length ≤ L) (hfu : m < fuel + k) (hpos : 0 < fuel) : Tot (repMatch f min (some m) fuel k) w := by
  induction fuel generalizing k w with
  | zero => omega
  | succ fuel ih =>
    intro s
    unfold repMatch
    split
    · rfl
    · rename_i hc
      split
      · rfl
      · rename_i hw
        have hk : k < m := by
          simp only [full, decide_eq_true_eq] at hc
          rcases Nat.lt_or_ge k m with h | h
          · exact h
          · exact absurd ⟨hw, h⟩ hc
        apply tryLen_tot
        · intro k hk; exact hf _ (by simp; omega)
        · rintro j hj _
          apply ih
          · simp; omega
          · omega
          · omega

def bound : Pat → Nat
  | .nil => 0
  | .comp _ q rest => max (q.max.getD 0) (bound rest)
  | .set _ _ q rest => max (q.max.getD 0) (bound rest)
  | .group inner q rest => max (max (q.max.getD 0) (bound inner)) (bound rest)

theorem matchSet_tot (env : Env α) (fuel : Nat) (incl : Bool) (cs : List CM) (w : List α) : Tot (matchM env fuel (.set incl cs)) w := by
  intro s; unfold matchM; split <;> rfl

theorem cons_tot (env : Env α) (fuel : Nat) (m r : M) (w : List α) (hm : ∀ x, x.length ≤ w.length → Tot (matchM env fuel m) x)
    (hr : ∀ x, x.length ≤ w.length → Tot (matchM env fuel r) x) : Tot (matchM env fuel (.cons m r)) w := by
  intro s
  unfold matchM
  apply tryLen_tot
  · intro k hk; exact hm _ (by simp; omega)
  · intro k hk _; exact hr _ (by simp)

theorem match_tot (env : Env α) (fuel : Nat) (p : Pat) (hp : p.WF env) (hb : p.Bounded env) (n : Nat) (w : List α)
    (h1 : w.length < fuel) (h2 : bound p < fuel) : Tot (matchM env fuel (toM env p n)) w := by
  induction p generalizing n w with
  | nil => intro s; simp [toM, matchM]
  | comp re q rest ih =>
    obtain ⟨g1, g2, g3⟩ := hp
    unfold bound at h2
    apply cons_tot
    · intro x hx s
      unfold matchM
      split
      · rfl
      · apply repMatch_tot_pos (L := x.length)
        · intro w _; exact matchSet_tot env fuel _ _ w
        · intro s s' h
          have := ((matchSet env fuel n false [re]).1 [] s true s' h).1 rfl
          exact setP_nil env _ _ this
        · exact Nat.le_refl _
        · omega
    · intro x hx
      exact ih g3 hb _ x (by omega) (by omega)
  | set neg res q rest ih =>
    obtain ⟨g1, _, g2, g3⟩ := hp
    unfold bound at h2
    apply cons_tot
    · intro x hx s
      unfold matchM
      split
      · rfl
      · apply repMatch_tot_pos (L := x.length)
        · intro w _; exact matchSet_tot env fuel _ _ w
        · intro s s' h
          have := ((matchSet env fuel n neg res).1 [] s true s' h).1 rfl
          exact setP_nil env _ _ this
        · exact Nat.le_refl _
        · omega
    · intro x hx
      exact ih g3 hb _ x (by omega) (by omega)
  | group inner q rest ihi ih =>
    obtain ⟨g1, _, g2, g3⟩ := hp
    obtain ⟨b1, b2, b3⟩ := hb
    unfold bound at h2
    have hgt : ∀ x : List α, x.length ≤ w.length → Tot (matchM env fuel (.group n (toM env inner (n + 1)))) x := by
      intro x hx s
      unfold matchM
      have : Tot (tryLen (fun w s => matchM env fuel (toM env inner (n + 1)) w s) (fun w s => some (w.isEmpty, s)) x.length) x := by
        apply tryLen_tot
        · intro k hk; exact ihi g1 b1 _ _ (by simp; omega) (by omega)
        · intro k hk _ s; rfl
      have := this (s.put n [])
      split
      · rename_i e; rw [e] at this; simp at this
      · rfl
      · rfl
    unfold toM
    apply cons_tot
    · intro x hx
      split
      · exact hgt x hx
      · intro s
        unfold matchM
        split
        · rfl
        · cases hm : q.max with
          | some m =>
            refine repMatch_tot_max q.min m w.length hgt fuel 0 x hx ?_ (by omega) s
            rw [hm] at h2; simp at h2; omega
          | none =>
            refine repMatch_tot_pos q.min none w.length hgt ?_ fuel 0 x hx (by omega) s
            intro s s' h
            have hi := match_toM env fuel inner g1 (n + 1)
            have hg := matchGroup env fuel n _ (by omega) (fun w a => way_within env inner (n + 1) w a) hi.1 hi.2.1 hi.2.2
            exact b2 hm (clang_lang env inner [] ((hg.1 [] s true s' h).1 rfl))
    · intro x hx
      exact ih g3 b3 _ x (by omega) (by omega)

/-! ### Anchors -/

def Pat.append : Pat → Pat → Pat
  | .nil, r => r
  | .comp re q rest, r => .comp re q (append rest r)
  | .set neg res q rest, r => .set neg res q (append rest r)
  | .group inner q rest, r => .group inner q (append rest r)

def anyPat : Pat := .comp [46, 42] .star .nil

theorem append_print (p r : Pat) : (Pat.append p r).print = p.print ++ r.print := by
  induction p with
  | nil => rfl
  | comp re q rest ih => simp [Pat.append, Pat.print, ih]
  | set neg res q rest ih => simp [Pat.append, Pat.print, ih]
  | group inner q rest _ ih => simp [Pat.append, Pat.print, ih]

theorem append_wf (env : Env α) (p r : Pat) : (Pat.append p r).WF env ↔ p.WF env ∧ r.WF env := by
  induction p with
  | nil => simp [Pat.append, Pat.WF]
  | comp re q rest ih => simp [Pat.append, Pat.WF, ih, and_assoc]
  | set neg res q rest ih => simp only [Pat.append, Pat.WF, ih, and_assoc]
  | group inner q rest _ ih => simp [Pat.append, Pat.WF, ih, and_assoc]

theorem append_solid (env : Env α) (p r : Pat) : (Pat.append p r).Solid env ↔ p.Solid env ∧ r.Solid env := by
  induction p with
  | nil => simp [Pat.append, Pat.Solid]
  | comp re q rest ih => simp [Pat.append, Pat.Solid, ih]
  | set neg res q rest ih => simp [Pat.append, Pat.Solid, ih]
  | group inner q rest _ ih => simp only [Pat.append, Pat.Solid, ih, and_assoc]

theorem append_bounded (env : Env α) (p r : Pat) : (Pat.append p r).Bounded env ↔ p.Bounded env ∧ r.Bounded env := by
  induction p with
  | nil => simp [Pat.append, Pat.Bounded]
  | comp re q rest ih => simp [Pat.append, Pat.Bounded, ih]
  | set neg res q rest ih => simp [Pat.append, Pat.Bounded, ih]
  | group inner q rest _ ih => simp only [Pat.append, Pat.Bounded, ih, and_assoc]

theorem append_groups (env : Env α) (p r : Pat) : (Pat.append p r).groups env = p.groups env + r.groups env := by
  induction p with
  | nil => simp [Pat.append, Pat.groups]
  | comp re q rest ih => simp [Pat.append, Pat.groups, ih]; omega
  | set neg res q rest ih => simp [Pat.append, Pat.groups, ih]; omega
  | group inner q rest _ ih => simp [Pat.append, Pat.groups, ih]; omega

theorem append_lang (env : Env α) (p r : Pat) (w : List α) : Lang env (Pat.append p r) w ↔ ∃ x y, w = x ++ y ∧ Lang env p x ∧ Lang env r y := by
  have step : ∀ (S : List α → Prop) (rest : Pat), (∀ w, Lang env (Pat.append rest r) w ↔ ∃ x y, w = x ++ y ∧ Lang env rest x ∧ Lang env r y) →
      ∀ w (T : Nat → List α → Prop), (∃ u v k, w = u ++ v ∧ T k u ∧ Lang env (Pat.append rest r) v) ↔
        ∃ x y, w = x ++ y ∧ (∃ u v k, x = u ++ v ∧ T k u ∧ Lang env rest v) ∧ Lang env r y := by
    intro S rest ih w T
    constructor
    · rintro ⟨u, v, k, rfl, h1, h2⟩
      obtain ⟨x, y, rfl, h3, h4⟩ := (ih v).1 h2
      exact ⟨u ++ x, y, by simp, ⟨u, x, k, rfl, h1, h3⟩, h4⟩
    · rintro ⟨x, y, rfl, ⟨u, v, k, rfl, h1, h2⟩, h3⟩
      exact ⟨u, v ++ y, k, by simp, h1, (ih _).2 ⟨v, y, rfl, h2, h3⟩⟩
  induction p generalizing w with
  | nil =>
    simp only [Pat.append, Lang]
    constructor
    · intro h; exact ⟨[], w, rfl, rfl, h⟩
    · rintro ⟨x, y, rfl, rfl, h⟩; exact h
  | comp re q rest ih =>
    have := step (fun _ => True) rest (fun w => ih w) w (fun k u => q.Allows k ∧ Pow (fun x => ∃ c, x = [c] ∧ Fits env re c) k u)
    simp only [Pat.append, Lang]
    simpa only [and_assoc] using this
  | set neg res q rest ih =>
    have := step (fun _ => True) rest (fun w => ih w) w (fun k u => q.Allows k ∧ Pow (fun x => ∃ c, x = [c] ∧ ((∃ re ∈ res, Fits env re c) ↔ neg = false)) k u)
    simp only [Pat.append, Lang]
    simpa only [and_assoc] using this
  | group inner q rest _ ih =>
    have := step (fun _ => True) rest (fun w => ih w) w (fun k u => q.Allows k ∧ Pow (Lang env inner) k u)
    simp only [Pat.append, Lang]
    simpa only [and_assoc] using this

theorem append_way (env : Env α) (p r : Pat) (n : Nat) (w : List α) (a : Caps α) (h : Way env (Pat.append p r) n w a) :
    ∃ x y b c, w = x ++ y ∧ a = b ++ c ∧ Way env p n x b ∧ Way env r (n + p.groups env) y c := by
  induction p generalizing n w a with
  | nil => exact ⟨[], w, [], a, rfl, rfl, ⟨rfl, rfl⟩, by simpa [Pat.groups, Pat.append] using h⟩
  | comp re q rest ih =>
    obtain ⟨u, v, k, b, c, rfl, rfl, h1, h2, h3⟩ := h
    obtain ⟨x, y, b', c', rfl, rfl, h4, h5⟩ := ih _ _ _ h3
    exact ⟨u ++ x, y, b ++ b', c', by simp, by simp, ⟨u, x, k, b, b', rfl, rfl, h1, h2, h4⟩, by simpa [Pat.groups, Nat.add_assoc] using h5⟩
  | set neg res q rest ih =>
    obtain ⟨u, v, k, b, c, rfl, rfl, h1, h2, h3⟩ := h
    obtain ⟨x, y, b', c', rfl, rfl, h4, h5⟩ := ih _ _ _ h3
    exact ⟨u ++ x, y, b ++ b', c', by simp, by simp, ⟨u, x, k, b, b', rfl, rfl, h1, h2, h4⟩, by simpa [Pat.groups, Nat.add_assoc] using h5⟩
  | group inner q rest _ ih =>
    obtain ⟨u, v, k, b, c, rfl, rfl, h1, h2, h3⟩ := h
    obtain ⟨x, y, b', c', rfl, rfl, h4, h5⟩ := ih _ _ _ h3
    exact ⟨u ++ x, y, b ++ b', c', by simp, by simp, ⟨u, x, k, b, b', rfl, rfl, h1, h2, h4⟩, by simpa [Pat.groups, Nat.add_assoc] using h5⟩

/-- What is assumed of the component regular expression `.*`. -/
structure Dot (env : Env α) : Prop where
  fits : ∀ c, Fits env [46, 42] c
  marks : env.marks [46, 42] = some 0

theorem dot_wf {env : Env α} (h : Dot env) : CompWF env [46, 42] := by
  refine ⟨?_, by decide, by rw [h.marks]; rfl⟩
  rw [bal_iff]
  rw [balD_cons (by decide), if_neg (by decide), if_neg (by decide), balD_cons (by decide), if_neg (by decide), if_neg (by decide)]
  exact balD_nil.2 rfl

theorem anyPat_wf {env : Env α} (h : Dot env) : anyPat.WF env := ⟨dot_wf h, trivial, trivial⟩

theorem dot_marks {env : Env α} (h : Dot env) : marksOf env [46, 42] = 0 := by unfold marksOf; rw [h.marks]; rfl

theorem pow_dot {env : Env α} (h : Dot env) (u : List α) : Pow (fun x => ∃ c, x = [c] ∧ Fits env [46, 42] c) u.length u := by
  induction u with
  | nil => rfl
  | cons c u ih => exact ⟨[c], u, rfl, ⟨c, rfl, h.fits c⟩, ih⟩

theorem star_allows (k : Nat) : Q.star.Allows k := ⟨Nat.zero_le _, fun m hm => by simp [Q.max] at hm⟩

theorem anyPat_lang {env : Env α} (h : Dot env) (w : List α) : Lang env anyPat w :=
  ⟨w, [], w.length, by simp, star_allows _, pow_dot h w, rfl⟩

theorem dot_caps {env : Env α} (h : Dot env) {n k : Nat} {u : List α} {b : Caps α}
    (hp : PowD (fun x d => ∃ y, x = [y] ∧ Fits env [46, 42] y ∧ compCaps env n [46, 42] y d) k u b) : b = [] := by
  have hw : Within b n n := by
    refine powD_within ?_ k u b hp
    rintro w a ⟨y, _, _, hc⟩
    have := compCaps_within env hc
    rwa [dot_marks h, Nat.add_zero] at this
  cases b with
  | nil => rfl
  | cons x b => have := hw x (by simp); omega

theorem anyPat_way {env : Env α} (h : Dot env) {n : Nat} {w : List α} {a : Caps α} (hw : Way env anyPat n w a) : a = [] := by
  obtain ⟨u, v, k, b, c, _, rfl, _, h2, _, rfl⟩ := hw
  rw [dot_caps h h2]; rfl

/-- The expression of the primary matcher. -/
def primaryPat (t : Spec.Top) : Pat := if t.fin then t.pat else Pat.append t.pat anyPat

def topOf (env : Env α) (t : Spec.Top) : Top :=
  ⟨(toM env (primaryPat t) 0, (primaryPat t).groups env),
    if t.start then none
    else some (toM env (.comp [46, 42] .star (primaryPat t)) 0, (Pat.comp [46, 42] .star (primaryPat t)).groups env)⟩


theorem q_print_last (q : Q) : (q = .one ∧ q.print = []) ∨ (q = .star ∧ q.print = [42]) ∨ ∃ y c, q.print = y ++ [c] ∧ (c = 63 ∨ c = 43 ∨ c = 125) := by
  cases q with
  | one => exact Or.inl ⟨rfl, rfl⟩
  | star => exact Or.inr (Or.inl ⟨rfl, rfl⟩)
  | opt => exact Or.inr (Or.inr ⟨[], 63, rfl, by simp⟩)
  | plus => exact Or.inr (Or.inr ⟨[], 43, rfl, by simp⟩)
  | exact n => exact Or.inr (Or.inr ⟨123 :: n, 125, rfl, by simp⟩)
  | atMost m => exact Or.inr (Or.inr ⟨123 :: 44 :: m, 125, rfl, by simp⟩)
  | atLeast n => exact Or.inr (Or.inr ⟨123 :: n ++ [44], 125, by simp [Q.print], by simp⟩)
  | between n m => exact Or.inr (Or.inr ⟨123 :: n ++ 44 :: m, 125, by simp [Q.print], by simp⟩)

/-- The text of an item: body, bracket, quantifier. -/
theorem item_last (x : Bytes) (b : UInt8) (q : Q) : ∃ y c, x ++ [b] ++ q.print = y ++ [c] ∧
    ((q = .one ∧ y = x ∧ c = b) ∨ (q = .star ∧ y = x ++ [b] ∧ c = 42) ∨ c = 63 ∨ c = 43 ∨ c = 125) := by
  rcases q_print_last q with ⟨h1, h2⟩ | ⟨h1, h2⟩ | ⟨y, c, h1, h2⟩
  · exact ⟨x, b, by rw [h2]; simp, Or.inl ⟨h1, rfl, rfl⟩⟩
  · exact ⟨x ++ [b], 42, by rw [h2], Or.inr (Or.inl ⟨h1, rfl, rfl⟩)⟩
  · exact ⟨x ++ [b] ++ y, c, by rw [h1]; simp, Or.inr (Or.inr h2)⟩

theorem comp_split (re : Bytes) (q : Q) (rest : Pat) : (Pat.comp re q rest).print = ((60 :: re) ++ [62] ++ q.print) ++ rest.print := by simp [Pat.print]
theorem set_split (neg : Bool) (res : List Bytes) (q : Q) (rest : Pat) :
    (Pat.set neg res q rest).print = ((91 :: setText neg res) ++ [93] ++ q.print) ++ rest.print := by simp [Pat.print]
theorem group_split (inner : Pat) (q : Q) (rest : Pat) :
    (Pat.group inner q rest).print = ((40 :: inner.print) ++ [41] ++ q.print) ++ rest.print := by simp [Pat.print]

theorem getLast_item (x : Bytes) (b : UInt8) (q : Q) (hb : b ≠ 36) (r : Bytes) (ih : r.getLast? ≠ some 36) : (x ++ [b] ++ q.print ++ r).getLast? ≠ some 36 := by
  rw [List.getLast?_append]
  cases hr : r.getLast? with
  | some d => rw [hr] at ih; simpa using ih
  | none =>
    obtain ⟨y, c, h1, h2⟩ := item_last x b q
    rw [Option.none_or, h1, List.getLast?_concat]
    intro e
    simp at e
    subst e
    rcases h2 with ⟨_, _, h⟩ | ⟨_, _, h⟩ | h | h | h
    · exact hb h.symm
    all_goals simp at h

theorem getLast_print (p : Pat) : p.print.getLast? ≠ some 36 := by
  induction p with
  | nil => simp [Pat.print]
  | comp re q rest ih => rw [comp_split]; exact getLast_item _ _ _ (by decide) _ ih
  | set neg res q rest ih => rw [set_split]; exact getLast_item _ _ _ (by decide) _ ih
  | group inner q rest _ ih => rw [group_split]; exact getLast_item _ _ _ (by decide) _ ih

theorem head_print (p : Pat) (t : Bytes) : p.print ≠ 94 :: t := by
  intro h
  rcases print_opens p with h' | ⟨c, u, h', hc⟩
  · rw [h'] at h; simp at h
  · rw [h'] at h; simp at h; rw [h.1] at hc; simp at hc

theorem primary_wf {env : Env α} (hd : Dot env) {t : Spec.Top} (h : t.pat.WF env) : (primaryPat t).WF env := by
  unfold primaryPat
  split
  · exact h
  · rw [append_wf]; exact ⟨h, anyPat_wf hd⟩

theorem anything_print : anyPat.print = anything := rfl

theorem compileTop_print {env : Env α} (hd : Dot env) {t : Spec.Top} (h : t.pat.WF env) (hne : t.print ≠ []) :
    compileTop env t.print = .ok (topOf env t) := by
  have hp := primary_wf hd h
  have hl := (compileList_iff env (primaryPat t).print _ _).2 ⟨primaryPat t, hp, rfl, rfl, rfl⟩
  have hl2 := (compileList_iff env (anything ++ (primaryPat t).print) _ _).2 ⟨.comp [46, 42] .star (primaryPat t), ⟨dot_wf hd, trivial, hp⟩, rfl, rfl, rfl⟩
  have key : ∀ e' : Bytes, (e' = (if t.start then [94] else []) ++ (primaryPat t).print) →
      (match e' with
        | 94 :: t =>
          match compileList env t with
          | some p => Result.ok (⟨p, none⟩ : Top)
          | none => .throws
        | t =>
          match compileList env (anything ++ t), compileList env t with
          | some s, some p => .ok ⟨p, some s⟩
          | _, _ => .throws) = .ok (topOf env t) := by
    intro e' he'
    cases hs : t.start with
    | true =>
      rw [hs] at he'
      simp at he'
      subst he'
      simp only [hl, topOf, hs, if_true]
    | false =>
      rw [hs] at he'
      simp at he'
      subst he'
      split
      · rename_i u hu; exact absurd hu (head_print _ u)
      · simp only [hl, hl2, topOf, hs]
        simp
  unfold compileTop
  cases hf : t.fin with
  | true =>
    have e : t.print = ((if t.start then [94] else []) ++ t.pat.print) ++ [36] := by unfold Spec.Top.print; rw [hf]; simp
    rw [e, List.getLast?_concat]
    simp only [ne_eq, not_true, if_false]
    apply key
    rw [List.dropLast_concat]
    unfold primaryPat; rw [hf]; rfl
  | false =>
    have e : t.print = (if t.start then [94] else []) ++ t.pat.print := by unfold Spec.Top.print; rw [hf]; simp
    cases hg : t.print.getLast? with
    | none => rw [List.getLast?_eq_none_iff] at hg; exact absurd hg hne
    | some c =>
      have hc : c ≠ 36 := by
        rintro rfl
        rw [e, List.getLast?_append] at hg
        cases hr : t.pat.print.getLast? with
        | some d =>
          rw [hr] at hg; simp at hg; rw [hg] at hr
          exact getLast_print _ hr
        | none =>
          rw [hr, Option.none_or] at hg
          split at hg <;> simp at hg
      simp only [hc, ne_eq, not_false_eq_true, if_true]
      apply key
      rw [e]
      unfold primaryPat; rw [hf]
      simp only [Bool.false_eq_true, if_false, append_print, anything_print, List.append_assoc]

/-- Characters counted at the end of a balanced text. -/
theorem bal_suffix {l r : UInt8} {a b : Bytes} (h : Bal l r (a ++ b)) : b.count l ≤ b.count r := by
  have h1 := h.1 a (List.prefix_append a b)
  have h2 := h.2
  simp only [List.count_append] at h2
  omega


/-- A text completed by `<.*>*` was complete before. -/
theorem unappend (env : Env α) (p : Pat) (hp : p.WF env) (e : Bytes) (h : p.print = e ++ anything) : ∃ p' : Pat, p'.WF env ∧ e = p'.print := by
  have step : ∀ (e X : Bytes) (rest : Pat), rest ≠ .nil → X ++ rest.print = e ++ anything → ∃ e2, e = X ++ e2 ∧ rest.print = e2 ++ anything := by
    intro e X rest hr h
    rcases List.append_eq_append_iff.1 h with ⟨a, h1, h2⟩ | ⟨a, h1, h2⟩
    · exact ⟨a, h1, h2⟩
    · have ho : ∃ c u, rest.print = c :: u ∧ (c = 60 ∨ c = 91 ∨ c = 40) := by
        rcases print_opens rest with ho | ho
        · cases rest with
          | nil => exact absurd rfl hr
          | _ => simp [Pat.print] at ho
        · exact ho
      obtain ⟨c, u, ho, hc⟩ := ho
      rw [ho] at h2
      cases a with
      | nil => exact ⟨[], by simpa using h1.symm, by rw [ho]; simpa using h2.symm⟩
      | cons a1 a =>
        exfalso
        unfold anything at h2
        cases a with
        | nil => simp at h2; rw [← h2.2.1] at hc; simp at hc
        | cons a2 a =>
          cases a with
          | nil => simp at h2; rw [← h2.2.2.1] at hc; simp at hc
          | cons a3 a =>
            cases a with
            | nil => simp at h2; rw [← h2.2.2.2.1] at hc; simp at hc
            | cons a4 a =>
              cases a with
              | nil => simp at h2; rw [← h2.2.2.2.2.1] at hc; simp at hc
              | cons a5 a => simp at h2
  -- an item at the end of the text is `<.*>*`
  have last : ∀ (e x : Bytes) (b : UInt8) (q : Q), x ++ [b] ++ q.print = e ++ anything → b ≠ 42 → q = .star ∧ b = 62 ∧ x = e ++ [60, 46, 42] := by
    intro e x b q h hb
    obtain ⟨y, c, h1, h2⟩ := item_last x b q
    rw [h1, show e ++ anything = (e ++ [60, 46, 42, 62]) ++ [42] by simp [anything]] at h
    have h3 := List.append_inj' h rfl
    have hc : c = 42 := by simpa using h3.2
    subst hc
    rcases h2 with ⟨_, _, h⟩ | ⟨h4, h5, _⟩ | h | h | h
    · exact absurd h.symm hb
    · refine ⟨h4, ?_⟩
      have h6 := h3.1
      rw [h5, show e ++ [60, 46, 42, 62] = (e ++ [60, 46, 42]) ++ [62] by simp] at h6
      have h7 := List.append_inj' h6 rfl
      exact ⟨by simpa using h7.2, h7.1⟩
    all_goals simp at h
  induction p generalizing e with
  | nil => simp [Pat.print, anything] at h
  | comp re q rest ih =>
    rw [comp_split] at h
    obtain ⟨w1, w2, w3⟩ := hp
    by_cases hr : rest = .nil
    · subst hr
      simp only [Pat.print, List.append_nil] at h
      obtain ⟨_, _, h3⟩ := last e _ _ _ h (by decide)
      cases e with
      | nil => exact ⟨.nil, trivial, rfl⟩
      | cons a e =>
        simp at h3
        have := w1.1
        rw [h3.2] at this
        have := bal_suffix this
        simp at this
    · obtain ⟨e2, rfl, h2⟩ := step e _ rest hr h
      obtain ⟨p', p1, rfl⟩ := ih w3 e2 h2
      exact ⟨.comp re q p', ⟨w1, w2, p1⟩, by rw [comp_split]⟩
  | set neg res q rest ih =>
    rw [set_split] at h
    obtain ⟨w1, w2, w3, w4⟩ := hp
    by_cases hr : rest = .nil
    · subst hr
      simp only [Pat.print, List.append_nil] at h
      obtain ⟨_, h2, _⟩ := last e _ _ _ h (by decide)
      simp at h2
    · obtain ⟨e2, rfl, h2⟩ := step e _ rest hr h
      obtain ⟨p', p1, rfl⟩ := ih w4 e2 h2
      exact ⟨.set neg res q p', ⟨w1, w2, w3, p1⟩, by rw [set_split]⟩
  | group inner q rest _ ih =>
    rw [group_split] at h
    obtain ⟨w1, w2, w3, w4⟩ := hp
    by_cases hr : rest = .nil
    · subst hr
      simp only [Pat.print, List.append_nil] at h
      obtain ⟨_, h2, _⟩ := last e _ _ _ h (by decide)
      simp at h2
    · obtain ⟨e2, rfl, h2⟩ := step e _ rest hr h
      obtain ⟨p', p1, rfl⟩ := ih w4 e2 h2
      exact ⟨.group inner q p', ⟨w1, w2, w3, p1⟩, by rw [group_split]⟩

/-- Accepted texts are texts of expressions. -/
theorem compileTop_ok {env : Env α} {e : Bytes} {m : Top} (h : compileTop env e = .ok m) : ∃ t : Spec.Top, t.pat.WF env ∧ e = t.print ∧ e ≠ [] := by
  unfold compileTop at h
  split at h
  · simp at h
  · rename_i c hl
    have hne : e ≠ [] := by rintro rfl; simp at hl
    have main : ∀ e' : Bytes, (match e' with
        | 94 :: t =>
          match compileList env t with
          | some p => Result.ok (⟨p, none⟩ : Top)
          | none => .throws
        | t =>
          match compileList env (anything ++ t), compileList env t with
          | some s, some p => .ok ⟨p, some s⟩
          | _, _ => .throws) = .ok m → ∃ (st : Bool) (p : Pat), p.WF env ∧ e' = (if st then [94] else []) ++ p.print := by
      intro e' h
      split at h
      · rename_i t
        split at h
        · rename_i p hp
          obtain ⟨p, n⟩ := p
          obtain ⟨p, p1, p2, _⟩ := (compileList_iff env _ _ _).1 hp
          exact ⟨true, p, p1, by simp [p2]⟩
        · simp at h
      · split at h
        · rename_i s p _ hp
          obtain ⟨p, n⟩ := p
          obtain ⟨p, p1, p2, _⟩ := (compileList_iff env _ _ _).1 hp
          exact ⟨false, p, p1, by simp [p2]⟩
        · simp at h
    obtain ⟨st, p, p1, p2⟩ := main _ h
    by_cases hc : c = 36
    · rw [if_neg (by simpa using hc)] at p2
      refine ⟨⟨st, true, p⟩, p1, ?_, hne⟩
      have : e = e.dropLast ++ [36] := by
        rw [← hc]
        rw [List.getLast?_eq_some_getLast hne] at hl
        simp only [Option.some.injEq] at hl
        rw [← hl]
        exact (List.dropLast_concat_getLast hne).symm
      rw [this, p2]; simp [Spec.Top.print]
    · rw [if_pos hc] at p2
      cases st with
      | true =>
        simp only [if_true] at p2
        cases e with
        | nil => exact absurd rfl hne
        | cons a e =>
          simp at p2
          obtain ⟨p', q1, rfl⟩ := unappend env p p1 e p2.2.symm
          exact ⟨⟨true, false, p'⟩, q1, by simp [Spec.Top.print, p2.1], hne⟩
      | false =>
        simp at p2
        obtain ⟨p', q1, rfl⟩ := unappend env p p1 e p2.symm
        exact ⟨⟨false, false, p'⟩, q1, by simp [Spec.Top.print], hne⟩

/-! ### Matching a name -/

theorem primary_lang {env : Env α} (hd : Dot env) (t : Spec.Top) (w : List α) :
    Lang env (primaryPat t) w ↔ ∃ y z, w = y ++ z ∧ Lang env t.pat y ∧ (t.fin = true → z = []) := by
  unfold primaryPat
  split
  · rename_i h
    constructor
    · intro hl; exact ⟨w, [], by simp, hl, fun _ => rfl⟩
    · rintro ⟨y, z, rfl, hl, hz⟩; rw [hz h, List.append_nil]; exact hl
  · rename_i h
    rw [append_lang]
    constructor
    · rintro ⟨x, y, rfl, hl, _⟩; exact ⟨x, y, rfl, hl, fun e => absurd e h⟩
    · rintro ⟨x, y, rfl, hl, _⟩; exact ⟨x, y, rfl, hl, anyPat_lang hd y⟩

theorem secondary_lang {env : Env α} (hd : Dot env) (p : Pat) (w : List α) :
    Lang env (.comp [46, 42] .star p) w ↔ ∃ x y, w = x ++ y ∧ Lang env p y := by
  constructor
  · rintro ⟨u, v, k, e, _, _, h⟩; exact ⟨u, v, e, h⟩
  · rintro ⟨u, v, e, h⟩; exact ⟨u, v, u.length, e, star_allows _, pow_dot hd u, h⟩

theorem primary_solid {env : Env α} (t : Spec.Top) (h : t.pat.Solid env) : (primaryPat t).Solid env := by
  unfold primaryPat; split
  · exact h
  · rw [append_solid]; exact ⟨h, trivial⟩

theorem primary_bounded {env : Env α} (t : Spec.Top) (h : t.pat.Bounded env) : (primaryPat t).Bounded env := by
  unfold primaryPat; split
  · exact h
  · rw [append_bounded]; exact ⟨h, trivial⟩

theorem primary_groups {env : Env α} (hd : Dot env) (t : Spec.Top) : (primaryPat t).groups env = t.pat.groups env := by
  unfold primaryPat; split
  · rfl
  · rw [append_groups]; simp [anyPat, Pat.groups, dot_marks hd]

theorem primary_way {env : Env α} (hd : Dot env) (t : Spec.Top) {n : Nat} {w : List α} {a : Caps α} (h : Way env (primaryPat t) n w a) :
    ∃ y z, w = y ++ z ∧ Way env t.pat n y a ∧ (t.fin = true → z = []) := by
  unfold primaryPat at h
  split at h
  · exact ⟨w, [], by simp, h, fun _ => rfl⟩
  · rename_i hf
    obtain ⟨x, y, b, c, rfl, rfl, h1, h2⟩ := append_way env _ _ _ _ _ h
    rw [anyPat_way hd h2, List.append_nil]
    exact ⟨x, y, rfl, h1, fun e => absurd e hf⟩


theorem powD_pow {D : List α → Caps α → Prop} {P : List α → Prop} (h : ∀ w a, D w a → P w) (k : Nat) (w : List α) (a : Caps α) (hp : PowD D k w a) : Pow P k w := by
  induction k generalizing w with
  | zero => exact hp.1
  | succ k ih =>
    cases k with
    | zero => exact ⟨w, [], by simp, h w a hp, rfl⟩
    | succ k => obtain ⟨u, v, b, e, h1, h2⟩ := hp; exact ⟨u, v, e, h u b h1, ih v h2⟩

theorem pow_powD {D : List α → Caps α → Prop} {P : List α → Prop} (h : ∀ w, P w → ∃ a, D w a) (k : Nat) (w : List α) (hp : Pow P k w) : ∃ a, PowD D k w a := by
  induction k generalizing w with
  | zero => exact ⟨[], hp, rfl⟩
  | succ k ih =>
    obtain ⟨u, v, rfl, h1, h2⟩ := hp
    obtain ⟨a, h1⟩ := h u h1
    cases k with
    | zero => rw [show v = [] from h2, List.append_nil]; exact ⟨a, h1⟩
    | succ k =>
      obtain ⟨b, h3⟩ := ih v h2
      exact ⟨b, u, v, a, rfl, h1, h3⟩

theorem setCaps_ex (env : Env α) (n : Nat) (res : List Bytes) (c : α) : ∃ a, setCaps env n res c a :=
  let ⟨a, h, _⟩ := (any_match env n res c (fun _ => [])).2.1
  ⟨a, h⟩

theorem compCaps_ex (env : Env α) (n : Nat) (re : Bytes) (c : α) (h : Fits env re c) : ∃ a, compCaps env n re c a :=
  let ⟨a, h, _⟩ := (cm_match env n re c (fun _ => [])).2.1 ((cm_match env n re c (fun _ => [])).1.2 h)
  ⟨a, h⟩

/-- The names with a way of matching are those of the language. -/
theorem way_lang (env : Env α) (p : Pat) (n : Nat) (w : List α) : (∃ a, Way env p n w a) ↔ Lang env p w := by
  induction p generalizing n w with
  | nil => exact ⟨fun ⟨a, h⟩ => h.1, fun h => ⟨[], h, rfl⟩⟩
  | comp re q rest ih =>
    constructor
    · rintro ⟨a, u, v, k, b, c, e, _, h1, h2, h3⟩
      exact ⟨u, v, k, e, h1, powD_pow (fun w a ⟨y, h, h', _⟩ => ⟨y, h, h'⟩) k u b h2, (ih _ v).1 ⟨c, h3⟩⟩
    · rintro ⟨u, v, k, e, h1, h2, h3⟩
      obtain ⟨c, h3⟩ := (ih (n + marksOf env re) v).2 h3
      obtain ⟨b, h2⟩ := pow_powD (D := fun x d => ∃ y, x = [y] ∧ Fits env re y ∧ compCaps env n re y d)
        (by rintro w ⟨y, h, h'⟩; obtain ⟨a, ha⟩ := compCaps_ex env n re y h'; exact ⟨a, y, h, h', ha⟩) k u h2
      exact ⟨b ++ c, u, v, k, b, c, e, rfl, h1, h2, h3⟩
  | set neg res q rest ih =>
    constructor
    · rintro ⟨a, u, v, k, b, c, e, _, h1, h2, h3⟩
      exact ⟨u, v, k, e, h1, powD_pow (fun w a ⟨y, h, h', _⟩ => ⟨y, h, h'⟩) k u b h2, (ih _ v).1 ⟨c, h3⟩⟩
    · rintro ⟨u, v, k, e, h1, h2, h3⟩
      obtain ⟨c, h3⟩ := (ih (n + (res.map (marksOf env)).sum) v).2 h3
      obtain ⟨b, h2⟩ := pow_powD (D := fun x d => ∃ y, x = [y] ∧ ((∃ re ∈ res, Fits env re y) ↔ neg = false) ∧ setCaps env n res y d)
        (by rintro w ⟨y, h, h'⟩; obtain ⟨a, ha⟩ := setCaps_ex env n res y; exact ⟨a, y, h, h', ha⟩) k u h2
      exact ⟨b ++ c, u, v, k, b, c, e, rfl, h1, h2, h3⟩
  | group inner q rest ihi ih =>
    constructor
    · rintro ⟨a, u, v, k, b, c, e, _, h1, h2, h3⟩
      exact ⟨u, v, k, e, h1, powD_pow (fun w a ⟨d, _, h'⟩ => (ihi (n + 1) w).1 ⟨d, h'⟩) k u b h2, (ih _ v).1 ⟨c, h3⟩⟩
    · rintro ⟨u, v, k, e, h1, h2, h3⟩
      obtain ⟨c, h3⟩ := (ih (n + 1 + inner.groups env) v).2 h3
      obtain ⟨b, h2⟩ := pow_powD (D := fun x d => ∃ d', d = d' ++ [(n, x)] ∧ Way env inner (n + 1) x d')
        (by intro w hw; obtain ⟨a, ha⟩ := (ihi (n + 1) w).2 hw; exact ⟨_, a, rfl, ha⟩) k u h2
      exact ⟨b ++ c, u, v, k, b, c, e, rfl, h1, h2, h3⟩

/-- The store that `expand` reads. -/
def TS.store (s : TS α) : Store α := if s.secondaryUsed then s.secondary else s.primary

theorem secondary_wf {env : Env α} (hd : Dot env) {t : Spec.Top} (hp : t.pat.WF env) : (Pat.comp [46, 42] .star (primaryPat t)).WF env :=
  ⟨dot_wf hd, trivial, primary_wf hd hp⟩

theorem top_true {env : Env α} (hd : Dot env) {t : Spec.Top} (hp : t.pat.WF env) {fuel : Nat} {w : List α} {s s' : TS α}
    (h : (topOf env t).match env fuel w s = some (true, s')) :
    ∃ x y z a, w = x ++ y ++ z ∧ (t.start = true → x = []) ∧ (t.fin = true → z = []) ∧ Way env t.pat 0 y a ∧ Agree s'.store a ∧
      s'.result = w ∧ (s'.secondaryUsed = true → (topOf env t).secondary.map Prod.snd = some (t.pat.groups env)) := by
  have hw := primary_wf hd hp
  have m1 := match_toM env fuel (primaryPat t) hw 0
  unfold Top.match at h
  split at h
  · simp at h
  · rename_i p he
    simp at h
    subst h
    obtain ⟨a, h1, h2⟩ := m1.2.2 w s.primary p he
    obtain ⟨y, z, e, h3, h4⟩ := primary_way hd t h1
    exact ⟨[], y, z, a, by simp [e], fun _ => rfl, h4, h3, h2, rfl, by simp⟩
  · rename_i p he
    split at h
    · simp at h
    · rename_i m hm
      have hst : t.start = false := by
        cases e : t.start with
        | false => rfl
        | true => simp [topOf, e] at hm
      split at h
      · simp at h
      · rename_i q hq
        simp at h
        subst h
        simp [topOf, hst] at hm
        subst hm
        obtain ⟨a, h1, h2⟩ := (match_toM env fuel _ (secondary_wf hd hp) 0).2.2 w s.secondary q hq
        obtain ⟨u, v, k, b, c, e, rfl, _, h3, h4⟩ := h1
        rw [dot_marks hd] at h4
        have hb := dot_caps hd h3
        subst hb
        obtain ⟨y, z, rfl, h5, h6⟩ := primary_way hd t h4
        refine ⟨u, y, z, c, by simp [e], by simp [hst], h6, h5, h2, rfl, ?_⟩
        intro _
        simp [topOf, hst, Pat.groups, dot_marks hd, primary_groups hd t]
      · simp at h

theorem top_false {env : Env α} (hd : Dot env) {t : Spec.Top} (hp : t.pat.WF env) (hs : t.pat.Solid env) {fuel : Nat} {w : List α} {s s' : TS α}
    (h : (topOf env t).match env fuel w s = some (false, s')) : ¬ t.Lang env w := by
  have m1 := match_toM env fuel (primaryPat t) (primary_wf hd hp) 0
  rintro ⟨x, y, z, rfl, hl, hx, hz⟩
  unfold Top.match at h
  split at h
  · simp at h
  · simp at h
  · rename_i p he
    have n1 : ¬ Lang env (primaryPat t) (x ++ y ++ z) := fun hc => by
      have := (m1.1 _ _ _ _ he).2 (lang_clang env _ (primary_solid t hs) _ hc)
      simp at this
    split at h
    · rename_i hm
      have hst : t.start = true := by
        cases e : t.start with
        | true => rfl
        | false => simp [topOf, e] at hm
      apply n1
      rw [primary_lang hd]
      exact ⟨y, z, by rw [hx hst]; rfl, hl, hz⟩
    · rename_i m hm
      have hst : t.start = false := by
        cases e : t.start with
        | false => rfl
        | true => simp [topOf, e] at hm
      simp [topOf, hst] at hm
      subst hm
      split at h
      · simp at h
      · simp at h
      · rename_i q hq
        have m2 := match_toM env fuel _ (secondary_wf hd hp) 0
        have hl2 : Lang env (.comp [46, 42] .star (primaryPat t)) (x ++ y ++ z) := by
          rw [secondary_lang hd]
          exact ⟨x, y ++ z, by simp, (primary_lang hd t _).2 ⟨y, z, rfl, hl, hz⟩⟩
        have hso : (Pat.comp [46, 42] .star (primaryPat t)).Solid env := primary_solid t hs
        have := (m2.1 _ _ _ _ hq).2 (lang_clang env _ hso _ hl2)
        simp at this

theorem top_tot {env : Env α} (hd : Dot env) {t : Spec.Top} (hp : t.pat.WF env) (hb : t.pat.Bounded env) {fuel : Nat} {w : List α} {s : TS α}
    (h1 : w.length < fuel) (h2 : bound (primaryPat t) < fuel) : ((topOf env t).match env fuel w s).isSome := by
  have t1 := match_tot env fuel (primaryPat t) (primary_wf hd hp) (primary_bounded t hb) 0 w h1 h2 s.primary
  have t2 := match_tot env fuel _ (secondary_wf hd hp) (show (Pat.comp [46, 42] .star (primaryPat t)).Bounded env from primary_bounded t hb) 0 w h1
    (by unfold bound; simp only [Q.max, Option.getD_none]; omega) s.secondary
  unfold Top.match
  split
  · rename_i e
    have e : matchM env fuel (toM env (primaryPat t) 0) w s.primary = none := e
    rw [e] at t1; simp at t1
  · rfl
  · split
    · rfl
    · rename_i m hm
      have hst : t.start = false := by
        cases e : t.start with
        | false => rfl
        | true => simp [topOf, e] at hm
      simp [topOf, hst] at hm
      subst hm
      split
      · rename_i e; simp only at e; rw [e] at t2; simp at t2
      · rfl
      · rfl

/-! ### Expansion -/

def endsLit : List Item → Bool
  | [] => false
  | [.lit _] => true
  | [.ref _] => false
  | _ :: i :: is => endsLit (i :: is)

def texts (is : List Item) : Bytes := is.flatMap Item.print

theorem texts_head (is : List Item) : texts is = [] ∨ ∃ c r, texts is = c :: r ∧ isDigit c = false := by
  cases is with
  | nil => exact Or.inl rfl
  | cons i is =>
    cases i with
    | lit u => exact Or.inr ⟨60, _, rfl, by decide⟩
    | ref n => exact Or.inr ⟨92, _, rfl, by decide⟩

theorem endsLit_tail {i : Item} {is : List Item} (h : endsLit (i :: is) = false) : endsLit is = false := by
  cases is with
  | nil => rfl
  | cons j is => cases i <;> exact h

theorem expandLoop_texts (env : Env α) (refs : Nat) (store : Store α) (result : List α) (is : List Item) (hwf : ∀ i ∈ is, i.WF)
    (hl : endsLit is = false) (fuel : Nat) (hf : (texts is).length ≤ fuel) :
    expandLoop env refs store result fuel (texts is) = (is.mapM (Item.value env refs store result)).map List.flatten := by
  induction is generalizing fuel with
  | nil => cases fuel <;> rfl
  | cons i is ih =>
    have ih := ih (fun j hj => hwf j (by simp [hj])) (endsLit_tail hl)
    cases i with
    | lit u =>
      have e : texts (.lit u :: is) = 60 :: (u ++ 62 :: texts is) := by simp [texts, Item.print]
      rw [e] at hf ⊢
      cases fuel with
      | zero => simp at hf
      | succ fuel =>
        have hne : texts is ≠ [] := by
          cases is with
          | nil => simp [endsLit] at hl
          | cons j is => cases j <;> simp [texts, Item.print]
        unfold expandLoop
        rw [if_neg (by decide), if_pos rfl, (sub_one_iff (by decide) _ u (texts is)).2 ⟨rfl, hwf (.lit u) (by simp)⟩]
        obtain ⟨y, r, hy⟩ := List.exists_cons_of_ne_nil hne
        have ih := ih fuel (by simp at hf; omega)
        rw [hy] at ih ⊢
        simp only [List.mapM_cons, Item.value]
        cases hp : env.parse u with
        | none => rfl
        | some cs =>
          simp only [ih]
          cases List.mapM (Item.value env refs store result) is <;> rfl
    | ref n =>
      have e : texts (.ref n :: is) = 92 :: (n ++ texts is) := by simp [texts, Item.print]
      rw [e] at hf ⊢
      cases fuel with
      | zero => simp at hf
      | succ fuel =>
        have hn : Num n := hwf (.ref n) (by simp)
        obtain ⟨t1, t2⟩ := takeWhile_digits hn.2.1 (texts_head is)
        unfold expandLoop
        rw [if_pos rfl]
        simp only [t1, t2, hn.1, if_false, stoul_num hn]
        have ih := ih fuel (by simp at hf; omega)
        rw [ih]
        simp only [List.mapM_cons, Item.value]
        split
        · cases List.mapM (Item.value env refs store result) is <;> rfl
        · split
          · cases List.mapM (Item.value env refs store result) is <;> rfl
          · rfl

theorem expandLoop_lit (env : Env α) (refs : Nat) (store : Store α) (result : List α) (is : List Item) (hwf : ∀ i ∈ is, i.WF)
    (hl : endsLit is = true) (fuel : Nat) : expandLoop env refs store result fuel (texts is) = none := by
  induction is generalizing fuel with
  | nil => simp [endsLit] at hl
  | cons i is ih =>
    have hwf' := fun j hj => hwf j (List.mem_cons_of_mem _ hj)
    cases i with
    | lit u =>
      have e : texts (.lit u :: is) = 60 :: (u ++ 62 :: texts is) := by simp [texts, Item.print]
      rw [e]
      cases fuel with
      | zero => rfl
      | succ fuel =>
        unfold expandLoop
        rw [if_neg (by decide), if_pos rfl, (sub_one_iff (by decide) _ u (texts is)).2 ⟨rfl, hwf (.lit u) (by simp)⟩]
        cases is with
        | nil => rfl
        | cons j is =>
          have ih := ih hwf' hl fuel
          have hne : texts (j :: is) ≠ [] := by cases j <;> simp [texts, Item.print]
          obtain ⟨y, r, hy⟩ := List.exists_cons_of_ne_nil hne
          rw [hy] at ih ⊢
          simp only [ih]
          cases env.parse u <;> rfl
    | ref n =>
      have e : texts (.ref n :: is) = 92 :: (n ++ texts is) := by simp [texts, Item.print]
      rw [e]
      cases fuel with
      | zero => rfl
      | succ fuel =>
        cases is with
        | nil => simp [endsLit] at hl
        | cons j is =>
          have ih := ih hwf' hl fuel
          have hn : Num n := hwf (.ref n) (by simp)
          obtain ⟨t1, t2⟩ := takeWhile_digits hn.2.1 (texts_head (j :: is))
          unfold expandLoop
          rw [if_pos rfl]
          simp only [t1, t2, hn.1, if_false, stoul_num hn, ih]
          split
          · rfl
          · split <;> rfl

/-! ### Expressions for a name -/

def namePat (env : Env α) : List α → Pat
  | [] => .nil
  | c :: w => .comp (convert (env.uri c)) .one (namePat env w)

theorem namePat_print (env : Env α) (w : List α) : (namePat env w).print = w.flatMap fun c => 60 :: convert (env.uri c) ++ [62] := by
  induction w with
  | nil => rfl
  | cons c w ih => simp [namePat, Pat.print, Q.print, ih]

theorem fromName_print (env : Env α) (w : List α) (anchor : Bool) : fromName env w anchor = (Spec.Top.print ⟨true, anchor, namePat env w⟩) := by
  simp [fromName, Spec.Top.print, namePat_print]

theorem namePat_solid (env : Env α) (w : List α) : (namePat env w).Solid env ∧ (namePat env w).Bounded env := by
  induction w with
  | nil => exact ⟨trivial, trivial⟩
  | cons c w ih => exact ih

theorem bal_none {l r : UInt8} {x : Bytes} (h1 : l ∉ x) (h2 : r ∉ x) : Bal l r x := by
  refine ⟨fun p hp => ?_, ?_⟩
  · rw [List.count_eq_zero_of_not_mem (fun h => h2 (hp.subset h))]; exact Nat.zero_le _
  · rw [List.count_eq_zero_of_not_mem h1, List.count_eq_zero_of_not_mem h2]

theorem convert_mem {x : Bytes} {c : UInt8} (h : c ∈ convert x) : c = 92 ∨ c ∈ x := by
  unfold convert at h
  simp only [List.mem_flatMap] at h
  obtain ⟨d, hd, hc⟩ := h
  split at hc
  · simp at hc; rcases hc with rfl | rfl
    · exact Or.inl rfl
    · exact Or.inr hd
  · simp at hc; subst hc; exact Or.inr hd

theorem namePat_lang (env : Env α) (hl : ∀ c d, Fits env (convert (env.uri c)) d ↔ d = c) (w v : List α) :
    Lang env (namePat env w) v ↔ v = w := by
  induction w generalizing v with
  | nil => exact Iff.rfl
  | cons c w ih =>
    constructor
    · rintro ⟨u, x, k, rfl, h1, h2, h3⟩
      have hk : k = 1 := by
        have a := h1.1; have b := h1.2 1 rfl
        simp only [Q.min] at a; omega
      subst hk
      obtain ⟨a, b, rfl, ⟨d, rfl, hd⟩, hb⟩ := h2
      rw [show b = [] from hb, (hl c d).1 hd, (ih x).1 h3]; rfl
    · rintro rfl
      exact ⟨[c], w, 1, rfl, ⟨Nat.le_refl _, fun m hm => by simp [Q.max] at hm; omega⟩, ⟨[c], [], rfl, ⟨c, rfl, (hl c c).2 rfl⟩, rfl⟩, (ih w).2 rfl⟩

end Ndn.Regex
