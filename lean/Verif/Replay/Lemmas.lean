import Verif.Replay.Spec

/-! Sequential histories of the machine, for any policy. -/
namespace Ndn.Replay
open Spec

variable {X R : Type}

theorem snocInd {α : Type} {motive : List α → Prop} (l : List α) (nil : motive [])
    (snoc : ∀ l a, motive l → motive (l ++ [a])) : motive l := by
  have h : ∀ l : List α, motive l.reverse := by
    intro l
    induction l with
    | nil => exact nil
    | cons a l ih => rw [List.reverse_cons]; exact snoc _ _ ih
  simpa using h l.reverse

theorem run_snoc (P : Policy X R) (s : St X R) (ops : List (Op X)) (op : Op X) :
    run P s (ops ++ [op]) = step P (run P s ops) op := by simp [run]

theorem sequential_snoc {P : Policy X R} {s : St X R} {ops : List (Op X)} {op : Op X}
    (h : Sequential P s (ops ++ [op])) :
    Sequential P s ops ∧ (∀ x, op = .arrive x → (run P s ops).pend = []) := by
  refine ⟨fun pre x post e => h pre x (post ++ [op]) (by simp [e]), ?_⟩
  rintro x rfl
  exact h ops x [] rfl

theorem recordings_append (l l' : List (Obs X)) : recordings (l ++ l') = recordings l ++ recordings l' := by
  simp [recordings]

theorem findPend_some {l : List (Pend X)} {id : Nat} {acc : Bool} {p : Pend X}
    (h : findPend l id acc = some p) : p ∈ l ∧ p.id = id ∧ p.accepted = acc := by
  have h1 := List.mem_of_find?_eq_some h
  have h2 := List.find?_some h
  simp at h2
  exact ⟨h1, h2.1, h2.2⟩

theorem mem_dropPend {l : List (Pend X)} {id : Nat} {p : Pend X} (h : p ∈ dropPend l id) : p ∈ l :=
  (List.mem_filter.mp h).1

theorem mem_markPend {l : List (Pend X)} {id : Nat} {p : Pend X} (h : p ∈ markPend l id) :
    ∃ q ∈ l, p.itm = q.itm ∧ p.now = q.now ∧ p.t = q.t ∧ p.id = q.id := by
  simp only [markPend, List.mem_map] at h
  obtain ⟨q, hq, rfl⟩ := h
  refine ⟨q, hq, ?_⟩
  split <;> simp

theorem dropPend_single {l : List (Pend X)} {p : Pend X} (hl : l.length ≤ 1) (hp : p ∈ l) :
    dropPend l p.id = [] := by
  match l, hl with
  | [], _ => rfl
  | [q], _ => simp at hp; subst hp; simp [dropPend]

theorem snoc_split {α : Type} {l pre post : List α} {a b : α} (h : l ++ [a] = pre ++ b :: post) :
    (l = pre ∧ a = b ∧ post = []) ∨ ∃ post', post = post' ++ [a] ∧ l = pre ++ b :: post' := by
  rcases List.eq_nil_or_concat post with rfl | ⟨post', c, rfl⟩
  · left
    have := List.append_inj' h rfl
    simp at this
    exact ⟨this.1, this.2, rfl⟩
  · right
    have h' : l ++ [a] = (pre ++ b :: post') ++ [c] := by simp [h]
    have := List.append_inj' h' rfl
    simp at this
    exact ⟨post', by simp [this.2], this.1⟩

/-- Induction over sequential histories: `I` is about the records, `J` about an Interest in flight. -/
theorem seq_run (P : Policy X R) (empty : R) (now0 t0 : Nat)
    (I : Nat → R → List (X × Nat) → Prop) (J : X → Nat → Nat → R → List (X × Nat) → Prop)
    (h0 : I t0 empty [])
    (hadv : ∀ t t' r l, I t r l → t ≤ t' → I t' r l)
    (hchk : ∀ now t r l x v r', I t r l → P.check now t r x = (v, r') →
      I t r' l ∧ (v = .pass → J x now t r' l))
    (hins : ∀ now t t' r l x r', I t' r l → J x now t r l → t ≤ t' → P.insert t' r x = some r' →
      I t' r' (l ++ [(x, t')]))
    (ops : List (Op X)) (hs : Sequential P (init empty now0 t0) ops) :
    let s := run P (init empty now0 t0) ops
    I s.steady s.recs (recordings s.log) ∧
    (∀ p ∈ s.pend, p.t ≤ s.steady ∧ J p.itm p.now p.t s.recs (recordings s.log)) ∧
    s.pend.length ≤ 1 ∧
    (∀ pre j x now t post, s.log = pre ++ .accepted j x now t :: post →
      ∃ r t', t ≤ t' ∧ I t' r (recordings pre) ∧ J x now t r (recordings pre)) := by
  induction ops using snocInd with
  | nil =>
    refine ⟨h0, ?_, ?_, ?_⟩
    · intro p hp; simp [run, init] at hp
    · simp [run, init]
    · intro pre j x now t post h; simp [run, init] at h
  | snoc ops op ih =>
    obtain ⟨hs1, hs2⟩ := sequential_snoc hs
    have IH := ih hs1
    rw [run_snoc]
    generalize run P (init empty now0 t0) ops = s at IH hs2
    obtain ⟨hI, hJ, hlen, hacc⟩ := IH
    cases op with
    | arrive x =>
      have hp : s.pend = [] := hs2 x rfl
      have hlog : ∀ ob : Obs X, (∀ j x now t, ob ≠ .accepted j x now t) →
          ∀ pre j x now t post, s.log ++ [ob] = pre ++ .accepted j x now t :: post →
          ∃ r t', t ≤ t' ∧ I t' r (recordings pre) ∧ J x now t r (recordings pre) := by
        intro ob hne pre j x now t post h
        rcases snoc_split h with ⟨_, h2, _⟩ | ⟨post', _, h2⟩
        · exact absurd h2 (hne _ _ _ _)
        · exact hacc _ _ _ _ _ _ h2
      rcases hc : P.check s.now s.steady s.recs x with ⟨v, r'⟩
      have hx := hchk _ _ _ _ _ _ _ hI hc
      cases v with
      | pass =>
        simp only [step, hc]
        rw [recordings_append, show recordings [Obs.checked s.next x s.now s.steady] = [] from rfl,
          List.append_nil]
        refine ⟨hx.1, ?_, by simp [hp], hlog _ (by simp)⟩
        intro p hp'
        simp [hp] at hp'
        subst hp'
        exact ⟨Nat.le_refl _, hx.2 rfl⟩
      | reject =>
        simp only [step, hc]
        rw [recordings_append, show recordings [Obs.rejected x] = [] from rfl, List.append_nil]
        exact ⟨hx.1, by simp [hp], by simp [hp], hlog _ (by simp)⟩
      | undef =>
        simp only [step, hc]
        rw [recordings_append, show recordings [(Obs.undefined : Obs X)] = [] from rfl, List.append_nil]
        exact ⟨hx.1, by simp [hp], by simp [hp], hlog _ (by simp)⟩
    | accept id =>
      simp only [step]
      cases hf : findPend s.pend id false with
      | none => exact ⟨hI, hJ, hlen, hacc⟩
      | some p =>
        obtain ⟨hpm, _, _⟩ := findPend_some hf
        simp only
        show I s.steady s.recs (recordings (s.log ++ [Obs.accepted id p.itm p.now p.t])) ∧ _
        rw [recordings_append, show recordings [Obs.accepted id p.itm p.now p.t] = [] from rfl,
          List.append_nil]
        refine ⟨hI, ?_, by simpa [markPend] using hlen, ?_⟩
        · intro q hq
          obtain ⟨q', hq', e1, e2, e3, _⟩ := mem_markPend hq
          have := hJ q' hq'
          rw [e1, e2, e3]
          exact this
        · intro pre j x now t post h
          rcases snoc_split h with ⟨h1, h2, _⟩ | ⟨post', _, h2⟩
          · cases h2
            subst h1
            exact ⟨s.recs, s.steady, (hJ p hpm).1, hI, (hJ p hpm).2⟩
          · exact hacc _ _ _ _ _ _ h2
    | record id =>
      simp only [step]
      cases hf : findPend s.pend id true with
      | none => exact ⟨hI, hJ, hlen, hacc⟩
      | some p =>
        obtain ⟨hpm, hid, _⟩ := findPend_some hf
        have hd : dropPend s.pend id = [] := hid ▸ dropPend_single hlen hpm
        cases hi : P.insert s.steady s.recs p.itm with
        | none =>
          simp only [hd, hi]
          exact ⟨hI, by simp, by simp, hacc⟩
        | some r' =>
          simp only [hd, hi]
          rw [recordings_append,
            show recordings [Obs.recorded id p.itm s.steady] = [(p.itm, s.steady)] from rfl]
          refine ⟨hins _ _ _ _ _ _ _ hI (hJ p hpm).2 (hJ p hpm).1 hi, by simp, by simp, ?_⟩
          intro pre j x now t post h
          rcases snoc_split h with ⟨_, h2, _⟩ | ⟨post', _, h2⟩
          · cases h2
          · exact hacc _ _ _ _ _ _ h2
    | fail id =>
      refine ⟨hI, fun p hp => hJ p (mem_dropPend hp), ?_, hacc⟩
      exact Nat.le_trans (List.length_filter_le _ _) hlen
    | throw id =>
      refine ⟨hI, fun p hp => hJ p (mem_dropPend hp), ?_, hacc⟩
      exact Nat.le_trans (List.length_filter_le _ _) hlen
    | setClock n => exact ⟨hI, hJ, hlen, hacc⟩
    | advance dt =>
      refine ⟨hadv _ _ _ _ hI (Nat.le_add_right _ _), fun p hp => ⟨?_, (hJ p hp).2⟩, hlen, hacc⟩
      exact Nat.le_trans (hJ p hp).1 (Nat.le_add_right _ _)

/-- Induction over all histories: `I` is about the records, `J` about an Interest that passed the
check. -/
theorem any_run (P : Policy X R) (empty : R) (now0 t0 : Nat)
    (I : Nat → R → List (X × Nat) → Prop) (J : X → Nat → Nat → Prop)
    (h0 : I t0 empty [])
    (hadv : ∀ t t' r l, I t r l → t ≤ t' → I t' r l)
    (hchk : ∀ now t r l x v r', I t r l → P.check now t r x = (v, r') →
      I t r' l ∧ (v = .pass → J x now t))
    (hins : ∀ now t t' r l x r', I t' r l → J x now t → t ≤ t' → P.insert t' r x = some r' →
      I t' r' (l ++ [(x, t')]))
    (ops : List (Op X)) :
    let s := run P (init empty now0 t0) ops
    I s.steady s.recs (recordings s.log) ∧
    (∀ p ∈ s.pend, p.t ≤ s.steady ∧ J p.itm p.now p.t) ∧
    (∀ j x now t, Obs.accepted j x now t ∈ s.log → J x now t) ∧
    (∀ pre j x now t post, s.log = pre ++ .checked j x now t :: post →
      ∃ r r', I t r (recordings pre) ∧ P.check now t r x = (.pass, r')) := by
  induction ops using snocInd with
  | nil =>
    refine ⟨h0, ?_, ?_, ?_⟩
    · intro p hp; simp [run, init] at hp
    · simp [run, init]
    · intro pre j x now t post h; simp [run, init] at h
  | snoc ops op ih =>
    rw [run_snoc]
    generalize run P (init empty now0 t0) ops = s at ih
    obtain ⟨hI, hJ, hacc, hck⟩ := ih
    have hlog : ∀ ob : Obs X, (∀ j x now t, ob ≠ .checked j x now t) →
          ∀ pre j x now t post, s.log ++ [ob] = pre ++ .checked j x now t :: post →
          ∃ r r', I t r (recordings pre) ∧ P.check now t r x = (.pass, r') := by
      intro ob hne pre j x now t post h
      rcases snoc_split h with ⟨_, h2, _⟩ | ⟨post', _, h2⟩
      · exact absurd h2 (hne _ _ _ _)
      · exact hck _ _ _ _ _ _ h2
    cases op with
    | arrive x =>
      rcases hc : P.check s.now s.steady s.recs x with ⟨v, r'⟩
      have hx := hchk _ _ _ _ _ _ _ hI hc
      cases v with
      | pass =>
        simp only [step, hc]
        rw [recordings_append, show recordings [Obs.checked s.next x s.now s.steady] = [] from rfl,
          List.append_nil]
        refine ⟨hx.1, ?_, by simpa using hacc, ?_⟩
        · intro p hp'
          rcases List.mem_append.mp hp' with hp' | hp'
          · exact hJ p hp'
          · simp at hp'
            subst hp'
            exact ⟨Nat.le_refl _, hx.2 rfl⟩
        · intro pre j x' now t post h
          rcases snoc_split h with ⟨h1, h2, _⟩ | ⟨post', _, h2⟩
          · cases h2
            subst h1
            exact ⟨_, _, hI, hc⟩
          · exact hck _ _ _ _ _ _ h2
      | reject =>
        simp only [step, hc]
        rw [recordings_append, show recordings [Obs.rejected x] = [] from rfl, List.append_nil]
        exact ⟨hx.1, hJ, by simpa using hacc, hlog _ (by simp)⟩
      | undef =>
        simp only [step, hc]
        rw [recordings_append, show recordings [(Obs.undefined : Obs X)] = [] from rfl, List.append_nil]
        exact ⟨hx.1, hJ, by simpa using hacc, hlog _ (by simp)⟩
    | accept id =>
      simp only [step]
      cases hf : findPend s.pend id false with
      | none => exact ⟨hI, hJ, hacc, hck⟩
      | some p =>
        obtain ⟨hpm, _, _⟩ := findPend_some hf
        simp only
        show I s.steady s.recs (recordings (s.log ++ [Obs.accepted id p.itm p.now p.t])) ∧ _
        rw [recordings_append, show recordings [Obs.accepted id p.itm p.now p.t] = [] from rfl,
          List.append_nil]
        refine ⟨hI, ?_, ?_, hlog _ (by simp)⟩
        · intro q hq
          obtain ⟨q', hq', e1, e2, e3, _⟩ := mem_markPend hq
          have := hJ q' hq'
          rw [e1, e2, e3]
          exact this
        · intro j x now t h
          rcases List.mem_append.mp h with h | h
          · exact hacc _ _ _ _ h
          · simp at h
            obtain ⟨_, rfl, rfl, rfl⟩ := h
            exact (hJ p hpm).2
    | record id =>
      simp only [step]
      cases hf : findPend s.pend id true with
      | none => exact ⟨hI, hJ, hacc, hck⟩
      | some p =>
        obtain ⟨hpm, hid, _⟩ := findPend_some hf
        cases hi : P.insert s.steady s.recs p.itm with
        | none =>
          simp only [hi]
          exact ⟨hI, fun p hp => hJ p (mem_dropPend hp), hacc, hck⟩
        | some r' =>
          simp only [hi]
          rw [recordings_append,
            show recordings [Obs.recorded id p.itm s.steady] = [(p.itm, s.steady)] from rfl]
          exact ⟨hins _ _ _ _ _ _ _ hI (hJ p hpm).2 (hJ p hpm).1 hi, fun p hp => hJ p (mem_dropPend hp),
            by simpa using hacc, hlog _ (by simp)⟩
    | fail id => exact ⟨hI, fun p hp => hJ p (mem_dropPend hp), hacc, hck⟩
    | throw id => exact ⟨hI, fun p hp => hJ p (mem_dropPend hp), hacc, hck⟩
    | setClock n => exact ⟨hI, hJ, hacc, hck⟩
    | advance dt =>
      refine ⟨hadv _ _ _ _ hI (Nat.le_add_right _ _), fun p hp => ⟨?_, (hJ p hp).2⟩, hacc, hck⟩
      exact Nat.le_trans (hJ p hp).1 (Nat.le_add_right _ _)

end Ndn.Replay
