import Verif.Mgmt.DatasetSpec
/-
C64: a StatusDataset response is complete, in order and well segmented.
-/
namespace Ndn.Mgmt
open Name

theorem segName_eq (s : Settings) (p : List Comp) (i : Nat) :
    segName s p i = p ++ [Spec.convComp s.encodeMarker .segment i] := by
  unfold segName; rw [Conv.from_eq]; rfl

theorem segmentsFrom_append (s : Settings) (p : List Comp) (xs ys : List Bytes) : ∀ n,
    segmentsFrom s p false n (xs ++ ys) = segmentsFrom s p false n xs ++ segmentsFrom s p false (n + xs.length) ys := by
  induction xs with
  | nil => intro n; simp [segmentsFrom]
  | cons x xs ih =>
    intro n
    simp only [List.cons_append, segmentsFrom, ih, List.length_cons, Bool.false_and]
    rw [show n + 1 + xs.length = n + (xs.length + 1) by omega]

theorem segmentsFrom_last (s : Settings) (p : List Comp) (xs : List Bytes) (y : Bytes) : ∀ n,
    segmentsFrom s p true n (xs ++ [y]) =
      segmentsFrom s p false n xs ++ [.data (p ++ [Spec.convComp s.encodeMarker .segment (n + xs.length)]) y true] := by
  induction xs with
  | nil => intro n; simp [segmentsFrom]
  | cons x xs ih =>
    intro n
    simp only [List.cons_append, segmentsFrom, ih, List.length_cons, Bool.false_and, Bool.true_and]
    rw [show n + 1 + xs.length = n + (xs.length + 1) by omega]
    congr 2
    cases xs <;> rfl

/-- The full segments sent and the bytes buffered make up `bytes`. -/
structure Holds (s : Settings) (c : Ctx) (full : List Bytes) (bytes : Bytes) : Prop where
  len : ∀ x ∈ full, x.length = maxPayload
  cat : full.flatten ++ c.buffer = bytes
  buf : c.buffer.length ≤ maxPayload
  rest : c.buffer = [] → full = []
  num : full.length < 2 ^ 64 → c.segmentNo = full.length
  out : full.length < 2 ^ 64 → c.out = segmentsFrom s c.pfx false 0 full

theorem flush_holds {s : Settings} {c : Ctx} {full : List Bytes} {bytes : Bytes} (h : Holds s c full bytes) :
    ∃ full', (∀ x ∈ full', x.length = maxPayload) ∧ full'.flatten ++ (c.flush s).buffer = bytes ∧
      (c.flush s).buffer.length < maxPayload ∧ (full'.length < 2 ^ 64 → (c.flush s).segmentNo = full'.length) ∧
      (full'.length < 2 ^ 64 → (c.flush s).out = segmentsFrom s c.pfx false 0 full') ∧ (c.flush s).pfx = c.pfx ∧
      (c.flush s).state = c.state ∧ (c.flush s).interest = c.interest := by
  unfold Ctx.flush
  by_cases hl : c.buffer.length = maxPayload
  · rw [if_pos hl]
    refine ⟨full ++ [c.buffer], ?_, ?_, (by simp [maxPayload]), ?_, ?_, rfl, rfl, rfl⟩
    · intro x hx
      rcases List.mem_append.1 hx with hx | hx
      · exact h.len x hx
      · rw [List.mem_singleton.1 hx]; exact hl
    · rw [← h.cat]; simp
    · intro hn
      rw [List.length_append, List.length_singleton] at hn ⊢
      rw [h.num (by omega)]
      exact Nat.mod_eq_of_lt hn
    · intro hn
      rw [List.length_append, List.length_singleton] at hn
      rw [segmentsFrom_append, segName_eq, h.num (by omega), h.out (by omega)]
      simp [segmentsFrom]
  · rw [if_neg hl]
    exact ⟨full, h.len, h.cat, (by have := h.buf; omega), h.num, h.out, rfl, rfl, rfl⟩

theorem loop_holds {s : Settings} : ∀ (fuel : Nat) (c : Ctx) (rest : Bytes) (full : List Bytes) (bytes : Bytes),
    Holds s c full bytes → rest.length ≤ fuel →
    (∃ full', Holds s (Ctx.appendLoop s fuel c rest) full' (bytes ++ rest)) ∧
      (Ctx.appendLoop s fuel c rest).pfx = c.pfx ∧ (Ctx.appendLoop s fuel c rest).state = c.state ∧
      (Ctx.appendLoop s fuel c rest).interest = c.interest := by
  intro fuel
  induction fuel with
  | zero =>
    intro c rest full bytes h hl
    have : rest = [] := List.length_eq_zero_iff.1 (by omega)
    subst this
    rw [List.append_nil]
    exact ⟨⟨full, h⟩, rfl, rfl, rfl⟩
  | succ fuel ih =>
    intro c rest full bytes h hl
    unfold Ctx.appendLoop
    by_cases hr : rest = []
    · rw [if_pos hr, hr, List.append_nil]
      exact ⟨⟨full, h⟩, rfl, rfl, rfl⟩
    · rw [if_neg hr]
      obtain ⟨full', h1, h2, h3, h4, h5, h6, h7, h8⟩ := flush_holds h
      simp only
      generalize hn : min rest.length (maxPayload - (c.flush s).buffer.length) = n
      have hpos : 0 < rest.length := List.length_pos_iff.2 hr
      have hn0 : 0 < n := by omega
      have hH : Holds s { c.flush s with buffer := (c.flush s).buffer ++ rest.take n } full' (bytes ++ rest.take n) := by
        refine ⟨h1, ?_, ?_, ?_, h4, ?_⟩
        · simp only; rw [← List.append_assoc, h2]
        · simp only [List.length_append, List.length_take]; omega
        · intro he
          simp only [List.append_eq_nil_iff] at he
          have := congrArg List.length he.2
          simp only [List.length_take, List.length_nil] at this
          omega
        · intro hf; simp only; rw [h6]; exact h5 hf
      obtain ⟨⟨full2, g1⟩, g2, g3, g4⟩ := ih _ (rest.drop n) full' _ hH (by simp only [List.length_drop]; omega)
      rw [List.append_assoc, List.take_append_drop] at g1
      exact ⟨⟨full2, g1⟩, g2.trans h6, g3.trans h7, g4.trans h8⟩

/-- What holds after the calls in `h`. -/
structure CtxInv (s : Settings) (h : CtxHist) (c : Ctx) : Prop where
  initial : c.state = .initial ↔ ¬ (Appended h ∨ Ended h ∨ Rejected h)
  finalized : c.state = .finalized ↔ Ended h ∨ Rejected h
  excl : ¬ (Ended h ∧ Rejected h)
  rej : Rejected h → ¬ Appended h
  fresh : c.state = .initial → c.buffer = [] ∧ c.segmentNo = 0 ∧ c.out = [] ∧ appendedBy h = []
  open_ : c.state ≠ .finalized → ∃ full, Holds s c full (appendedBy h)
  done : Ended h → ∃ full last, (∀ x ∈ full, x.length = maxPayload) ∧ last.length ≤ maxPayload ∧
    (last = [] → full = []) ∧ full.flatten ++ last = appendedBy h ∧
    (full.length < 2 ^ 64 → c.out = segmentsFrom s c.pfx true 0 (full ++ [last]))
  nack : Rejected h → ∃ code, (CtxOp.reject code, CtxRes.ok) ∈ h ∧ c.out = [.nack code]
  pfx : c.interest <+: c.pfx

theorem appendedBy_snoc (h : CtxHist) (e : CtxOp × CtxRes) : appendedBy (h ++ [e]) = appendedBy h ++ appendedBy [e] := by
  induction h with
  | nil => rfl
  | cons x h ih =>
    obtain ⟨op, r⟩ := x
    cases op <;> cases r <;> simp [appendedBy, ih]

theorem Appended_snoc (h : CtxHist) (op : CtxOp) (r : CtxRes) :
    Appended (h ++ [(op, r)]) ↔ Appended h ∨ ∃ b, op = .append b ∧ r = .ok := by
  unfold Appended
  simp only [List.mem_append, List.mem_singleton, Prod.mk.injEq, exists_or]
  constructor
  · rintro (h | ⟨b, rfl, rfl⟩)
    · exact Or.inl h
    · exact Or.inr ⟨b, rfl, rfl⟩
  · rintro (h | ⟨b, rfl, rfl⟩)
    · exact Or.inl h
    · exact Or.inr ⟨b, rfl, rfl⟩

theorem Ended_snoc (h : CtxHist) (op : CtxOp) (r : CtxRes) :
    Ended (h ++ [(op, r)]) ↔ Ended h ∨ (op = .finish ∧ r = .ok) := by
  unfold Ended
  simp only [List.mem_append, List.mem_singleton, Prod.mk.injEq, eq_comm]

theorem Rejected_snoc (h : CtxHist) (op : CtxOp) (r : CtxRes) :
    Rejected (h ++ [(op, r)]) ↔ Rejected h ∨ ∃ c, op = .reject c ∧ r = .ok := by
  unfold Rejected
  simp only [List.mem_append, List.mem_singleton, Prod.mk.injEq, exists_or]
  constructor
  · rintro (h | ⟨b, rfl, rfl⟩)
    · exact Or.inl h
    · exact Or.inr ⟨b, rfl, rfl⟩
  · rintro (h | ⟨b, rfl, rfl⟩)
    · exact Or.inl h
    · exact Or.inr ⟨b, rfl, rfl⟩

/-- A call that changes neither the context nor what counts in the history. -/
theorem inv_same {s : Settings} {h : CtxHist} {c : Ctx} (i : CtxInv s h c) (op : CtxOp) (r : CtxRes)
    (hr : r ≠ .ok ∨ ∃ p v, op = .setPrefix p v) : CtxInv s (h ++ [(op, r)]) c := by
  have ha : Appended (h ++ [(op, r)]) ↔ Appended h := by
    rw [Appended_snoc]
    constructor
    · rintro (h | ⟨b, rfl, rfl⟩)
      · exact h
      · rcases hr with h | ⟨p, v, h⟩
        · exact absurd rfl h
        · cases h
    · exact Or.inl
  have he : Ended (h ++ [(op, r)]) ↔ Ended h := by
    rw [Ended_snoc]
    constructor
    · rintro (h | ⟨rfl, rfl⟩)
      · exact h
      · rcases hr with h | ⟨p, v, h⟩
        · exact absurd rfl h
        · cases h
    · exact Or.inl
  have hj : Rejected (h ++ [(op, r)]) ↔ Rejected h := by
    rw [Rejected_snoc]
    constructor
    · rintro (h | ⟨b, rfl, rfl⟩)
      · exact h
      · rcases hr with h | ⟨p, v, h⟩
        · exact absurd rfl h
        · cases h
    · exact Or.inl
  have hb : appendedBy (h ++ [(op, r)]) = appendedBy h := by
    rw [appendedBy_snoc]
    rcases hr with hr | ⟨p, v, rfl⟩
    · cases op <;> cases r <;> simp_all [appendedBy]
    · cases r <;> simp [appendedBy]
  constructor
  · rw [ha, he, hj]; exact i.initial
  · rw [he, hj]; exact i.finalized
  · rw [he, hj]; exact i.excl
  · rw [ha, hj]; exact i.rej
  · rw [hb]; exact i.fresh
  · rw [hb]; exact i.open_
  · rw [he, hb]; exact i.done
  · intro h1
    obtain ⟨code, h2, h3⟩ := i.nack (hj.1 h1)
    exact ⟨code, List.mem_append_left _ h2, h3⟩
  · exact i.pfx

theorem ctx_step {s : Settings} {h : CtxHist} {c : Ctx} (i : CtxInv s h c) (op : CtxOp) :
    CtxInv s (h ++ [(op, (c.step s op).1)]) (c.step s op).2 ∧ EndsRight s c.interest h op (c.step s op).1 ∧
      (c.step s op).2.interest = c.interest := by
  cases op with
  | setPrefix p v =>
    simp only [Ctx.step, Ctx.setPrefix, EndsRight]
    by_cases h0 : c.state ≠ .initial
    · rw [if_pos h0]
      have hx : Appended h ∨ Ended h ∨ Rejected h := by
        apply Classical.byContradiction
        intro hc; exact h0 (i.initial.2 hc)
      refine ⟨inv_same i _ _ (Or.inl (fun h => by cases h)), ⟨⟨fun _ => hx, fun _ => rfl⟩, ⟨(fun h => by cases h), fun h => absurd hx h.1⟩⟩, rfl⟩
    · rw [if_neg h0]
      have h1 : c.state = .initial := Classical.byContradiction h0
      have hx := i.initial.1 h1
      by_cases hp : c.interest <+: p
      · rw [if_neg (by simpa using hp)]
        cases hl : p.getLast? with
        | none =>
          exact ⟨inv_same i _ _ (Or.inl (fun h => by cases h)), ⟨⟨(fun h => by cases h), fun h => absurd h hx⟩,
            ⟨(fun h => by cases h), (by rintro ⟨_, _, l, h, _⟩; cases h)⟩⟩, rfl⟩
        | some l =>
          simp only
          by_cases hs : Conv.segment.is s l = true
          · rw [if_pos hs]
            exact ⟨inv_same i _ _ (Or.inl (fun h => by cases h)), ⟨⟨(fun h => by cases h), fun h => absurd h hx⟩,
              ⟨(fun h => by cases h), (by rintro ⟨_, _, l', h, h2⟩; cases h; rw [hs] at h2; cases h2)⟩⟩, rfl⟩
          · rw [if_neg hs]
            have hs' : Conv.segment.is s l = false := by simpa using hs
            obtain ⟨f1, f2, f3, f4⟩ := i.fresh h1
            have hij : ∀ q : List Comp, c.interest <+: q → CtxInv s h { c with pfx := q } := by
              intro q hq
              refine ⟨i.initial, i.finalized, i.excl, i.rej, i.fresh, ?_, ?_, ?_, hq⟩
              · intro _
                exact ⟨[], ⟨(fun x hx => by cases hx), (by simp [f1, f4]), (by simp [f1]), (fun _ => rfl),
                  (fun _ => f2), (fun _ => by simpa [segmentsFrom] using f3)⟩⟩
              · intro he; exact absurd (Or.inr (Or.inl he)) hx
              · intro he; exact absurd (Or.inr (Or.inr he)) hx
            have hres : (CtxRes.ok = .logicError ↔ Appended h ∨ Ended h ∨ Rejected h) ∧
                (CtxRes.ok = .ok ↔ ¬ (Appended h ∨ Ended h ∨ Rejected h) ∧ c.interest <+: p ∧
                  ∃ l', some l = some l' ∧ Conv.segment.is s l' = false) :=
              ⟨⟨(fun h => by cases h), fun h => absurd h hx⟩, ⟨fun _ => ⟨hx, hp, l, rfl, hs'⟩, fun _ => rfl⟩⟩
            by_cases hv : Conv.version.is s l = true
            · rw [if_pos hv]
              exact ⟨inv_same (hij p hp) _ _ (Or.inr ⟨_, _, rfl⟩), hres, rfl⟩
            · rw [if_neg hv]
              exact ⟨inv_same (hij _ (hp.trans (List.prefix_append _ _))) _ _ (Or.inr ⟨_, _, rfl⟩), hres, rfl⟩
      · rw [if_pos (by simpa using hp)]
        exact ⟨inv_same i _ _ (Or.inl (fun h => by cases h)), ⟨⟨(fun h => by cases h), fun h => absurd h hx⟩,
          ⟨(fun h => by cases h), fun h => absurd h.2.1 hp⟩⟩, rfl⟩
  | append b =>
    simp only [Ctx.step, Ctx.append, EndsRight]
    by_cases h0 : c.state = .finalized
    · rw [if_pos h0]
      refine ⟨inv_same i _ _ (Or.inl (fun h => by cases h)), ⟨Or.inr rfl, ⟨(fun h => by cases h), fun h => absurd (i.finalized.1 h0) h⟩⟩, rfl⟩
    · rw [if_neg h0]
      have hx : ¬ (Ended h ∨ Rejected h) := fun hc => h0 (i.finalized.2 hc)
      obtain ⟨full, hf⟩ := i.open_ h0
      have hf' : Holds s { c with state := .responded } full (appendedBy h) := ⟨hf.len, hf.cat, hf.buf, hf.rest, hf.num, hf.out⟩
      obtain ⟨⟨full', g⟩, g2, g3, g4⟩ := loop_holds b.length _ b full _ hf' (Nat.le_refl _)
      have he : ¬ Ended (h ++ [(CtxOp.append b, CtxRes.ok)]) := by
        rw [Ended_snoc]; rintro (h | ⟨h, _⟩)
        · exact hx (Or.inl h)
        · cases h
      have hj : ¬ Rejected (h ++ [(CtxOp.append b, CtxRes.ok)]) := by
        rw [Rejected_snoc]; rintro (h | ⟨_, h, _⟩)
        · exact hx (Or.inr h)
        · cases h
      have ha : Appended (h ++ [(CtxOp.append b, CtxRes.ok)]) := (Appended_snoc _ _ _).2 (Or.inr ⟨b, rfl, rfl⟩)
      refine ⟨⟨?_, ?_, ?_, ?_, ?_, ?_, ?_, ?_, ?_⟩, ⟨Or.inl rfl, ⟨fun _ => hx, fun _ => rfl⟩⟩, g4⟩
      · rw [g3]
        exact ⟨(fun h => by cases h), fun hc => absurd (Or.inl ha) hc⟩
      · rw [g3]
        exact ⟨(fun h => by cases h), fun hc => hc.elim (fun h => absurd h he) (fun h => absurd h hj)⟩
      · exact fun hc => he hc.1
      · exact fun hc => absurd hc hj
      · rw [g3]; intro h; cases h
      · intro _
        refine ⟨full', ?_⟩
        rw [appendedBy_snoc]
        simpa [appendedBy] using g
      · exact fun hc => absurd hc he
      · exact fun hc => absurd hc hj
      · rw [g2, g4]; exact i.pfx
  | finish =>
    simp only [Ctx.step, Ctx.finish, EndsRight]
    by_cases h0 : c.state = .finalized
    · rw [if_pos h0]
      refine ⟨inv_same i _ _ (Or.inl (fun h => by cases h)), ⟨Or.inr rfl, ⟨(fun h => by cases h), fun h => absurd (i.finalized.1 h0) h⟩⟩, rfl⟩
    · rw [if_neg h0]
      have hx : ¬ (Ended h ∨ Rejected h) := fun hc => h0 (i.finalized.2 hc)
      obtain ⟨full, hf⟩ := i.open_ h0
      have he : Ended (h ++ [(CtxOp.finish, CtxRes.ok)]) := (Ended_snoc _ _ _).2 (Or.inr ⟨rfl, rfl⟩)
      have hj : ¬ Rejected (h ++ [(CtxOp.finish, CtxRes.ok)]) := by
        rw [Rejected_snoc]; rintro (h | ⟨_, h, _⟩)
        · exact hx (Or.inr h)
        · cases h
      refine ⟨⟨?_, ?_, ?_, ?_, ?_, ?_, ?_, ?_, i.pfx⟩, ⟨Or.inl rfl, ⟨fun _ => hx, fun _ => rfl⟩⟩, rfl⟩
      · exact ⟨(fun h => by cases h), fun hc => absurd (Or.inr (Or.inl he)) hc⟩
      · exact ⟨fun _ => Or.inl he, fun _ => rfl⟩
      · exact fun hc => hj hc.2
      · exact fun hc => absurd hc hj
      · intro h; cases h
      · intro h; exact absurd rfl h
      · intro _
        refine ⟨full, c.buffer, hf.len, hf.buf, hf.rest, ?_, ?_⟩
        · rw [appendedBy_snoc, hf.cat]; simp [appendedBy]
        · intro hn
          simp only
          rw [segmentsFrom_last, hf.out hn, segName_eq, hf.num hn, Nat.zero_add]
      · exact fun hc => absurd hc hj
  | reject code =>
    simp only [Ctx.step, Ctx.reject, EndsRight]
    by_cases h0 : c.state ≠ .initial
    · rw [if_pos h0]
      have hx : Appended h ∨ Ended h ∨ Rejected h := by
        apply Classical.byContradiction
        intro hc; exact h0 (i.initial.2 hc)
      refine ⟨inv_same i _ _ (Or.inl (fun h => by cases h)), ⟨Or.inr rfl, ⟨(fun h => by cases h), fun h => absurd hx h⟩⟩, rfl⟩
    · rw [if_neg h0]
      have h1 : c.state = .initial := Classical.byContradiction h0
      have hx := i.initial.1 h1
      obtain ⟨f1, f2, f3, f4⟩ := i.fresh h1
      have he : ¬ Ended (h ++ [(CtxOp.reject code, CtxRes.ok)]) := by
        rw [Ended_snoc]; rintro (h | ⟨h, _⟩)
        · exact hx (Or.inr (Or.inl h))
        · cases h
      have hj : Rejected (h ++ [(CtxOp.reject code, CtxRes.ok)]) := (Rejected_snoc _ _ _).2 (Or.inr ⟨code, rfl, rfl⟩)
      refine ⟨⟨?_, ?_, ?_, ?_, ?_, ?_, ?_, ?_, i.pfx⟩, ⟨Or.inl rfl, ⟨fun _ => hx, fun _ => rfl⟩⟩, rfl⟩
      · exact ⟨(fun h => by cases h), fun hc => absurd (Or.inr (Or.inr hj)) hc⟩
      · exact ⟨fun _ => Or.inr hj, fun _ => rfl⟩
      · exact fun hc => he hc.1
      · intro _
        rw [Appended_snoc]; rintro (h | ⟨_, h, _⟩)
        · exact hx (Or.inl h)
        · cases h
      · intro h; cases h
      · intro h; exact absurd rfl h
      · exact fun hc => absurd hc he
      · intro _
        exact ⟨code, by simp, by simp [f3]⟩

theorem ctx_run {s : Settings} (ops : List CtxOp) : ∀ (h : CtxHist) (c : Ctx), CtxInv s h c →
    CtxInv s (h ++ ops.zip (Ctx.run s ops c).1) (Ctx.run s ops c).2 ∧ (Ctx.run s ops c).2.interest = c.interest ∧
    ∀ (k : Nat) op, ops[k]? = some op → ∃ r, (Ctx.run s ops c).1[k]? = some r ∧
      EndsRight s c.interest (h ++ (ops.zip (Ctx.run s ops c).1).take k) op r := by
  induction ops with
  | nil => intro h c i; simpa [Ctx.run] using i
  | cons op ops ih =>
    intro h c i
    obtain ⟨i1, i2, i3⟩ := ctx_step i op
    obtain ⟨j1, j2, j3⟩ := ih _ _ i1
    simp only [Ctx.run, List.zip_cons_cons]
    refine ⟨?_, j2.trans i3, ?_⟩
    · simpa using j1
    · intro k op' hk
      cases k with
      | zero =>
        simp only [List.getElem?_cons_zero, Option.some.injEq] at hk
        subst hk
        exact ⟨_, rfl, by simpa using i2⟩
      | succ k =>
        simp only [List.getElem?_cons_succ] at hk
        obtain ⟨r, hr, he⟩ := j3 k op' hk
        refine ⟨r, hr, ?_⟩
        rw [i3] at he
        simpa using he

theorem make_inv {s : Settings} {interest : List Comp} {v : Nat} {c : Ctx} (h : Ctx.make s interest v = some c) :
    CtxInv s [] c ∧ c.interest = interest := by
  have i0 : ∀ p, interest <+: p → CtxInv s [] { interest := interest, pfx := p } := by
    intro p hp
    have h1 : ¬ (Appended [] ∨ Ended [] ∨ Rejected []) := by
      rintro (⟨_, h⟩ | h | ⟨_, h⟩) <;> cases h
    refine ⟨⟨fun _ => h1, fun _ => rfl⟩, ⟨(fun h => by cases h), fun h => absurd (Or.inr h) h1⟩,
      fun h => h1 (Or.inr (Or.inl h.1)), fun h => absurd (Or.inr (Or.inr h)) h1, fun _ => ⟨rfl, rfl, rfl, rfl⟩, ?_,
      fun h => absurd (Or.inr (Or.inl h)) h1, fun h => absurd (Or.inr (Or.inr h)) h1, hp⟩
    intro _
    exact ⟨[], ⟨(fun x hx => by cases hx), rfl, (by simp), (fun _ => rfl), (fun _ => rfl), (fun _ => rfl)⟩⟩
  unfold Ctx.make Ctx.setPrefix at h
  simp only [ne_eq, not_true_eq_false, if_false, List.prefix_refl] at h
  cases hl : interest.getLast? with
  | none => rw [hl] at h; cases h
  | some l =>
    rw [hl] at h
    simp only at h
    by_cases hs : Conv.segment.is s l = true
    · rw [if_pos hs] at h; cases h
    · rw [if_neg hs] at h
      by_cases hv : Conv.version.is s l = true
      · rw [if_pos hv] at h; cases h
        exact ⟨i0 _ (List.prefix_refl _), rfl⟩
      · rw [if_neg hv] at h; cases h
        exact ⟨i0 _ (List.prefix_append _ _), rfl⟩

/-! ### C64 -/

theorem flatten_len {full : List Bytes} {n : Nat} (h : ∀ x ∈ full, x.length = n) : full.flatten.length = full.length * n := by
  induction full with
  | nil => simp
  | cons x xs ih =>
    simp only [List.flatten_cons, List.length_append, List.length_cons]
    rw [h x (by simp), ih (fun y hy => h y (List.mem_cons_of_mem _ hy)), Nat.succ_mul]
    omega

/-- After `end` succeeded, the segments sent are the bytes given to the successful `append` calls cut into pieces of at
most 8000 bytes, in order and complete, numbered consecutively from 0 under the prefix; exactly the last is marked
final; and nothing else was sent. -/
theorem C64_complete (s : Settings) (interest : List Comp) (v : Nat) (c0 : Ctx) (ops : List CtxOp)
    (h0 : Ctx.make s interest v = some c0) (h : CtxHist) (hh : h = ops.zip (Ctx.run s ops c0).1) (he : Ended h)
    (hsize : (appendedBy h).length < 2 ^ 64) :
    ∃ segments, Cut 8000 (appendedBy h) segments ∧
      (Ctx.run s ops c0).2.out = segmentsFrom s (Ctx.run s ops c0).2.pfx true 0 segments := by
  subst hh
  have i := (ctx_run ops [] c0 (make_inv h0).1).1
  rw [List.nil_append] at i
  obtain ⟨full, last, h1, h2, h3, h4, h5⟩ := i.done he
  have hl := flatten_len h1
  have hmax : maxPayload = 8000 := rfl
  have hlen : full.length < 2 ^ 64 := by
    have := congrArg List.length h4
    rw [List.length_append, hl, hmax] at this
    omega
  refine ⟨full ++ [last], ⟨by simp, by simpa using h4, ?_, ?_, ?_⟩, h5 hlen⟩
  · intro x hx
    rcases List.mem_append.1 hx with hx | hx
    · rw [h1 x hx]; exact Nat.le_refl _
    · rw [List.mem_singleton.1 hx]; exact h2
  · intro k x hx hk
    rw [List.length_append, List.length_singleton] at hk
    rw [List.getElem?_append_left (by omega)] at hx
    exact h1 x (List.mem_of_getElem? hx)
  · intro hlast
    rw [List.getLast?_append] at hlast
    simp only [List.getLast?_singleton, Option.some_or, Option.some.injEq] at hlast
    subst hlast
    rw [← h4, h3 rfl]; rfl

/-- Until then, whatever was sent is a run of full segments numbered from 0, none of them final, holding the first of the
bytes; at most 8000 bytes have not been sent. -/
theorem C64_open (s : Settings) (interest : List Comp) (v : Nat) (c0 : Ctx) (ops : List CtxOp)
    (h0 : Ctx.make s interest v = some c0) (h : CtxHist) (hh : h = ops.zip (Ctx.run s ops c0).1)
    (he : ¬ (Ended h ∨ Rejected h)) (hsize : (appendedBy h).length < 2 ^ 64) :
    ∃ full rest, (∀ x ∈ full, x.length = 8000) ∧ rest.length ≤ 8000 ∧ full.flatten ++ rest = appendedBy h ∧
      (Ctx.run s ops c0).2.out = segmentsFrom s (Ctx.run s ops c0).2.pfx false 0 full := by
  subst hh
  have i := (ctx_run ops [] c0 (make_inv h0).1).1
  rw [List.nil_append] at i
  obtain ⟨full, hf⟩ := i.open_ (fun hc => he (i.finalized.1 hc))
  have hl := flatten_len hf.len
  have hlen : full.length < 2 ^ 64 := by
    have := congrArg List.length hf.cat
    have hmax : maxPayload = 8000 := rfl
    rw [List.length_append, hl, hmax] at this
    omega
  exact ⟨full, _, hf.len, hf.buf, hf.cat, hf.out hlen⟩

/-- After `reject` succeeded exactly one negative acknowledgement was sent, and no data. -/
theorem C64_rejected (s : Settings) (interest : List Comp) (v : Nat) (c0 : Ctx) (ops : List CtxOp)
    (h0 : Ctx.make s interest v = some c0) (h : CtxHist) (hh : h = ops.zip (Ctx.run s ops c0).1) (hr : Rejected h) :
    ∃ code, (CtxOp.reject code, CtxRes.ok) ∈ h ∧ (Ctx.run s ops c0).2.out = [.nack code] := by
  subst hh
  have i := (ctx_run ops [] c0 (make_inv h0).1).1
  rw [List.nil_append] at i
  exact i.nack hr

/-- Each call ends as documented: after `end` or `reject` everything is refused; `reject` and `setPrefix` are refused
once anything was appended; a prefix must start with the Interest's name and not end in a segment. -/
theorem C64_calls (s : Settings) (interest : List Comp) (v : Nat) (c0 : Ctx) (ops : List CtxOp)
    (h0 : Ctx.make s interest v = some c0) (k : Nat) (op : CtxOp) (hk : ops[k]? = some op) :
    ∃ r, (Ctx.run s ops c0).1[k]? = some r ∧
      EndsRight s interest ((ops.zip (Ctx.run s ops c0).1).take k) op r := by
  have i := (ctx_run ops [] c0 (make_inv h0).1).2.2 k op hk
  rw [(make_inv h0).2] at i
  simpa using i

/-- A refused call changes nothing; in particular nothing is sent after `end` or `reject`. -/
theorem C64_refused (s : Settings) (c : Ctx) (op : CtxOp) (h : (c.step s op).1 ≠ .ok) : (c.step s op).2 = c := by
  cases op <;> simp only [Ctx.step, Ctx.setPrefix, Ctx.append, Ctx.finish, Ctx.reject] at h ⊢
  · repeat' split at h
    all_goals first
      | exact absurd rfl h
      | simp_all
  all_goals
    split at h
    · simp_all
    · exact absurd rfl h

/-- The prefix starts with the name of the Interest. -/
theorem C64_prefix (s : Settings) (interest : List Comp) (v : Nat) (c0 : Ctx) (ops : List CtxOp)
    (h0 : Ctx.make s interest v = some c0) : interest <+: (Ctx.run s ops c0).2.pfx := by
  have i := ctx_run ops [] c0 (make_inv h0).1
  have := i.1.pfx
  rwa [i.2.1, (make_inv h0).2] at this

theorem setPrefix_versioned {s : Settings} {c : Ctx} {p : List Comp} {v : Nat} (h : (c.setPrefix s p v).1 = .ok) :
    Versioned s p (c.setPrefix s p v).2.pfx := by
  unfold Ctx.setPrefix at h ⊢
  split
  · rename_i h0; rw [if_pos h0] at h; cases h
  · rename_i h0
    rw [if_neg h0] at h
    split
    · rename_i h1; rw [if_pos h1] at h; cases h
    · rename_i h1
      rw [if_neg h1] at h
      cases hl : p.getLast? with
      | none => rw [hl] at h; cases h
      | some l =>
        rw [hl] at h
        simp only at h ⊢
        split
        · rename_i h2; rw [if_pos h2] at h; cases h
        · split
          · rename_i h3
            exact Or.inl ⟨rfl, l, hl, h3⟩
          · rename_i h3
            refine Or.inr ⟨v, by simp only [Conv.from_eq]; rfl, ?_⟩
            intro l' hl'
            rw [hl] at hl'; cases hl'
            simpa using h3

theorem step_pfx {s : Settings} (c : Ctx) (op : CtxOp) (h : ∀ p v, op ≠ .setPrefix p v) : (c.step s op).2.pfx = c.pfx := by
  cases op with
  | setPrefix p v => exact absurd rfl (h p v)
  | append b =>
    simp only [Ctx.step, Ctx.append]
    split
    · rfl
    · have : ∀ (fuel : Nat) (c : Ctx) (b : Bytes), (Ctx.appendLoop s fuel c b).pfx = c.pfx := by
        intro fuel
        induction fuel with
        | zero => intro c b; rfl
        | succ n ih =>
          intro c b
          unfold Ctx.appendLoop
          split
          · rfl
          · rw [ih]
            simp only [Ctx.flush]
            split <;> rfl
      rw [this]
  | finish => simp only [Ctx.step, Ctx.finish]; split <;> rfl
  | reject code => simp only [Ctx.step, Ctx.reject]; split <;> rfl

theorem run_versioned {s : Settings} : ∀ (ops : List CtxOp) (c : Ctx) (p : List Comp), Versioned s p c.pfx →
    Versioned s (askedPrefix p (ops.zip (Ctx.run s ops c).1)) (Ctx.run s ops c).2.pfx := by
  intro ops
  induction ops with
  | nil => intro c p h; exact h
  | cons op ops ih =>
    intro c p h
    simp only [Ctx.run, List.zip_cons_cons]
    cases op with
    | setPrefix q v =>
      by_cases hr : (c.setPrefix s q v).1 = .ok
      · have := ih (c.step s (.setPrefix q v)).2 q (setPrefix_versioned hr)
        simpa only [askedPrefix, List.foldl_cons, Ctx.step, hr] using this
      · have hsame : (c.step s (.setPrefix q v)).2 = c := by
          simp only [Ctx.step, Ctx.setPrefix] at hr ⊢
          repeat' split at hr
          all_goals first
            | exact absurd rfl hr
            | simp_all
        have := ih (c.step s (.setPrefix q v)).2 p (by rw [hsame]; exact h)
        simp only [askedPrefix, List.foldl_cons] at this ⊢
        cases hk : (c.step s (.setPrefix q v)).1 with
        | ok => exact absurd hk hr
        | logicError => exact this
        | invalidArgument => exact this
        | outOfBounds => exact this
    | append b => exact ih _ p (by rw [step_pfx _ _ (by simp)]; exact h)
    | finish => exact ih _ p (by rw [step_pfx _ _ (by simp)]; exact h)
    | reject code => exact ih _ p (by rw [step_pfx _ _ (by simp)]; exact h)

/-- The prefix of all segments is that of the last successful `setPrefix`, or else the name of the Interest, with a version
added if it does not end in one. -/
theorem C64_version (s : Settings) (interest : List Comp) (v : Nat) (c0 : Ctx) (ops : List CtxOp)
    (h0 : Ctx.make s interest v = some c0) :
    Versioned s (askedPrefix interest (ops.zip (Ctx.run s ops c0).1)) (Ctx.run s ops c0).2.pfx := by
  apply run_versioned
  unfold Ctx.make at h0
  split at h0
  · rename_i c hc
    cases h0
    have := setPrefix_versioned (s := s) (c := { interest := interest }) (p := interest) (v := v) (by rw [hc])
    rw [hc] at this
    exact this
  · cases h0

/-- A context is made for every Interest whose name is not empty and does not end in a segment number. -/
theorem C64_make (s : Settings) (interest : List Comp) (v : Nat) :
    (Ctx.make s interest v).isSome ↔ ∃ l, interest.getLast? = some l ∧ Conv.segment.is s l = false := by
  unfold Ctx.make Ctx.setPrefix
  simp only [ne_eq, not_true_eq_false, if_false, List.prefix_refl]
  cases hl : interest.getLast? with
  | none => simp
  | some l =>
    simp only [Option.some.injEq, exists_eq_left']
    cases hs : Conv.segment.is s l <;> cases hv : Conv.version.is s l <;> simp

/-! Examples. -/

def exSettings : Settings := ⟨false, true, true⟩
def exCtx : Ctx := { interest := [⟨8, [97]⟩], pfx := [⟨8, [97]⟩, ⟨54, [5]⟩] }

example : Ctx.make exSettings [⟨8, [97]⟩] 5 = some exCtx := by decide

/-- Two appends, then the end; a later append is refused. -/
example : Ctx.run exSettings [.append [1, 2], .append [3], .finish, .append [4]] exCtx =
    ([.ok, .ok, .ok, .logicError],
     { exCtx with buffer := [1, 2, 3], state := .finalized,
                  out := [.data [⟨8, [97]⟩, ⟨54, [5]⟩, ⟨50, [0]⟩] [1, 2, 3] true] }) := by decide

theorem ex_hist (b : Bytes) :
    [CtxOp.append b, CtxOp.finish].zip (Ctx.run exSettings [.append b, .finish] exCtx).1 =
      [(.append b, .ok), (.finish, .ok)] := by
  have hs : (Ctx.appendLoop exSettings b.length { exCtx with state := .responded } b).state = .responded :=
    (loop_holds (s := exSettings) b.length { exCtx with state := .responded } b [] []
      ⟨(fun x hx => by cases hx), rfl, (by simp [exCtx]), (fun _ => rfl), (fun _ => rfl), (fun _ => rfl)⟩ (Nat.le_refl _)).2.2.1
  have h1 : exCtx.state ≠ .finalized := by decide
  simp only [Ctx.run, Ctx.step, Ctx.append, Ctx.finish, if_neg h1, hs]
  rfl

/-- Any dataset meets the hypotheses of `C64_complete`, for example one of more than one segment. -/
example (b : Bytes) (hb : b.length = 20000) : ∃ c0 h, Ctx.make exSettings [⟨8, [97]⟩] 5 = some c0 ∧
    h = [CtxOp.append b, CtxOp.finish].zip (Ctx.run exSettings [.append b, .finish] c0).1 ∧ Ended h ∧
    (appendedBy h).length < 2 ^ 64 := by
  refine ⟨exCtx, _, by decide, rfl, ?_, ?_⟩ <;> rw [ex_hist]
  · unfold Ended; simp
  · simp [appendedBy, hb]

/-- A rejected request. -/
example : Ctx.run exSettings [.reject 404, .append [1], .finish] exCtx =
    ([.ok, .logicError, .logicError], { exCtx with state := .finalized, out := [.nack 404] }) := by decide

end Ndn.Mgmt
