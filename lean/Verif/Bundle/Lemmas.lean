import Verif.Bundle.Spec
import Verif.Block.Lemmas
import Verif.Packet.Lemmas
/-
Lemmas on the decoder of certificate bundles.
-/
namespace Ndn.Bundle
open Ndn.Block Ndn.Block.Spec Ndn.Tlv Spec

variable {C : Type}

/-- What is left when no element is left. -/
theorem fromBuffer_none {tail : Bytes} (h : ∀ w t v rest, TlvForm w t v → tail ≠ w ++ rest) : fromBuffer tail = none := by
  cases hf : fromBuffer tail with
  | none => rfl
  | some x =>
    obtain ⟨e, rest⟩ := x
    obtain ⟨h1, h2⟩ := fromBuffer_iff.mp hf
    exact absurd h1 (h _ _ _ rest h2)

theorem form_pos {e : Raw} (h : TlvForm e.wire e.type e.value) : 0 < e.wire.length := by
  obtain ⟨t, l, h1, h2, _⟩ := h
  have : t ≠ [] := by
    intro e0
    subst e0
    have := readVarNumber_iff (bs := []) (rest := []) (n := e.type) |>.mpr ⟨[], rfl, h2⟩
    cases this
  rw [h1]
  cases t with
  | nil => exact absurd rfl this
  | cons a t => simp

/-- The decoder at work: elements that may be in a bundle are consumed, the rest stays. -/
theorem decode_good (cert : Raw → Option C) (throws : C → Bool) (tail : Bytes) (ht : fromBuffer tail = none) :
    ∀ (es : List Raw) (fuel : Nat) (out : List C), (∀ e ∈ es, TlvForm e.wire e.type e.value) → (∀ e ∈ es, Good cert throws e) →
    ((es.map Raw.wire).flatten ++ tail).length ≤ fuel →
    decode cert throws fuel ⟨(es.map Raw.wire).flatten ++ tail, false, out⟩ = (false, ⟨tail, false, out ++ certsOf cert es⟩) := by
  intro es
  induction es with
  | nil =>
    intro fuel out _ _ _
    simp only [List.map_nil, List.flatten_nil, List.nil_append, certsOf, List.filter_nil, List.filterMap_nil, List.append_nil]
    cases fuel with
    | zero => rfl
    | succ n =>
      simp only [decode]
      split
      · rfl
      · rw [ht]
  | cons e es ih =>
    intro fuel out hf hg hl
    have hfe := hf e List.mem_cons_self
    have hpos := form_pos hfe
    simp only [List.map_cons, List.flatten_cons, List.append_assoc, List.length_append] at hl ⊢
    cases fuel with
    | zero => omega
    | succ n =>
      simp only [decode]
      rw [if_neg (by intro e0; rw [List.append_eq_nil_iff] at e0; rw [e0.1] at hpos; cases hpos)]
      rw [fromBuffer_iff (r := e) (rest := (es.map Raw.wire).flatten ++ tail) |>.mpr ⟨rfl, hfe⟩]
      dsimp only
      have hrest : ((es.map Raw.wire).flatten ++ tail).length ≤ n := by rw [List.length_append]; omega
      rcases hg e List.mem_cons_self with ⟨h6, c, hc, hth⟩ | ⟨h6, h31, h2⟩
      · rw [if_pos h6, hc]
        dsimp only
        rw [hth]
        simp only [Bool.false_eq_true, if_false]
        rw [ih n _ (fun x hx => hf x (List.mem_cons_of_mem _ hx)) (fun x hx => hg x (List.mem_cons_of_mem _ hx)) hrest]
        simp [certsOf, h6, hc]
      · rw [if_neg h6, if_neg (by rw [Ndn.Packet.isCritical_iff]; omega)]
        rw [ih n _ (fun x hx => hf x (List.mem_cons_of_mem _ hx)) (fun x hx => hg x (List.mem_cons_of_mem _ hx)) hrest]
        simp [certsOf, h6]

/-- An element that may not be in a bundle ends it. -/
theorem decode_bad (cert : Raw → Option C) (throws : C → Bool) (e : Raw) (he : TlvForm e.wire e.type e.value) (hb : ¬ Good cert throws e) (after : Bytes) :
    ∀ (es : List Raw) (fuel : Nat) (out : List C), (∀ e ∈ es, TlvForm e.wire e.type e.value) → (∀ e ∈ es, Good cert throws e) →
    ((es.map Raw.wire).flatten ++ (e.wire ++ after)).length ≤ fuel →
    decode cert throws fuel ⟨(es.map Raw.wire).flatten ++ (e.wire ++ after), false, out⟩ =
      (true, ⟨after, true, out ++ certsOf cert (es ++ [e])⟩) := by
  intro es
  induction es with
  | nil =>
    intro fuel out _ _ hl
    have hpos := form_pos he
    simp only [List.map_nil, List.flatten_nil, List.nil_append, List.length_append] at hl ⊢
    cases fuel with
    | zero => omega
    | succ n =>
      simp only [decode]
      rw [if_neg (by intro e0; rw [List.append_eq_nil_iff] at e0; rw [e0.1] at hpos; cases hpos)]
      rw [fromBuffer_iff (r := e) (rest := after) |>.mpr ⟨rfl, he⟩]
      dsimp only
      by_cases h6 : e.type = 6
      · rw [if_pos h6]
        cases hc : cert e with
        | none => simp [certsOf, h6, hc]
        | some c =>
          dsimp only
          have : throws c = true := by
            cases ht : throws c with
            | true => rfl
            | false => exact absurd (.inl ⟨h6, c, hc, ht⟩) hb
          rw [if_pos this]
          simp [certsOf, h6, hc]
      · rw [if_neg h6, if_pos (by rw [Ndn.Packet.isCritical_iff]; intro h; exact hb (.inr ⟨h6, by omega, h.2⟩))]
        simp [certsOf, h6]
  | cons x es ih =>
    intro fuel out hf hg hl
    have hfe := hf x List.mem_cons_self
    have hpos := form_pos hfe
    simp only [List.map_cons, List.flatten_cons, List.append_assoc, List.length_append] at hl ⊢
    cases fuel with
    | zero => omega
    | succ n =>
      simp only [decode]
      rw [if_neg (by intro e0; rw [List.append_eq_nil_iff] at e0; rw [e0.1] at hpos; cases hpos)]
      rw [fromBuffer_iff (r := x) (rest := (es.map Raw.wire).flatten ++ (e.wire ++ after)) |>.mpr ⟨rfl, hfe⟩]
      dsimp only
      have hrest : ((es.map Raw.wire).flatten ++ (e.wire ++ after)).length ≤ n := by simp only [List.length_append]; omega
      rcases hg x List.mem_cons_self with ⟨h6, c, hc, hth⟩ | ⟨h6, h31, h2⟩
      · rw [if_pos h6, hc]
        dsimp only
        rw [hth]
        simp only [Bool.false_eq_true, if_false]
        rw [ih n _ (fun x hx => hf x (List.mem_cons_of_mem _ hx)) (fun x hx => hg x (List.mem_cons_of_mem _ hx)) hrest]
        simp [certsOf, h6, hc]
      · rw [if_neg h6, if_neg (by rw [Ndn.Packet.isCritical_iff]; omega)]
        rw [ih n _ (fun x hx => hf x (List.mem_cons_of_mem _ hx)) (fun x hx => hg x (List.mem_cons_of_mem _ hx)) hrest]
        simp [certsOf, h6]

/-- All octets can be taken apart. -/
theorem parts_exist (n : Nat) : ∀ bs : Bytes, bs.length ≤ n → ∃ es tail, Parts bs es tail := by
  induction n with
  | zero =>
    intro bs h
    have : bs = [] := List.length_eq_zero_iff.mp (by omega)
    subst this
    refine ⟨[], [], rfl, (fun e h => by cases h), fun w t v rest hf e => ?_⟩
    have := form_pos (e := ⟨t, w, v⟩) hf
    have h0 := (List.append_eq_nil_iff.mp e.symm).1
    dsimp only at this
    rw [h0] at this
    cases this
  | succ n ih =>
    intro bs h
    cases hf : fromBuffer bs with
    | none =>
      refine ⟨[], bs, rfl, (fun e h => by cases h), fun w t v rest hw e => ?_⟩
      have := fromBuffer_iff (bs := bs) (r := ⟨t, w, v⟩) (rest := rest) |>.mpr ⟨e, hw⟩
      rw [hf] at this
      cases this
    | some x =>
      obtain ⟨e, rest⟩ := x
      obtain ⟨h1, h2⟩ := fromBuffer_iff.mp hf
      have := form_pos h2
      obtain ⟨es, tail, g1, g2, g3⟩ := ih rest (by rw [h1, List.length_append] at h; omega)
      refine ⟨e :: es, tail, ?_, ?_, g3⟩
      · rw [h1, g1]; simp
      · intro x hx
        rcases List.mem_cons.mp hx with rfl | hx
        · exact h2
        · exact g2 x hx

theorem split_bad {P : Raw → Prop} (es : List Raw) : (∀ e ∈ es, P e) ∨ ∃ a e b, es = a ++ e :: b ∧ (∀ x ∈ a, P x) ∧ ¬ P e := by
  induction es with
  | nil => exact .inl (fun e h => by cases h)
  | cons e es ih =>
    by_cases h : P e
    · rcases ih with ih | ⟨a, x, b, h1, h2, h3⟩
      · left
        intro x hx
        rcases List.mem_cons.mp hx with rfl | hx
        · exact h
        · exact ih x hx
      · right
        refine ⟨e :: a, x, b, by rw [h1]; rfl, ?_, h3⟩
        intro y hy
        rcases List.mem_cons.mp hy with rfl | hy
        · exact h
        · exact h2 y hy
    · exact .inr ⟨[], e, es, rfl, (fun x hx => by cases hx), h⟩

theorem run_snoc (cert : Raw → Option C) (throws : C → Bool) (s : Decoder C) (l : List Bytes) (x : Bytes) :
    run cert throws s (l ++ [x]) = (append cert throws (run cert throws s l) x).2 := by
  unfold run
  rw [List.foldl_append]
  rfl

/-- What the decoder has done, told by the octets it was given. -/
def Done (cert : Raw → Option C) (throws : C → Bool) (bs : Bytes) (s : Decoder C) : Prop :=
  (∃ es tail, Parts bs es tail ∧ (∀ e ∈ es, Good cert throws e) ∧ s = ⟨tail, false, certsOf cert es⟩) ∨
  (∃ es e after, bs = (es.map Raw.wire).flatten ++ (e.wire ++ after) ∧ (∀ x ∈ es, TlvForm x.wire x.type x.value) ∧ (∀ x ∈ es, Good cert throws x) ∧
    TlvForm e.wire e.type e.value ∧ ¬ Good cert throws e ∧ s.err = true ∧ s.out = certsOf cert (es ++ [e]))

theorem append_done (cert : Raw → Option C) (throws : C → Bool) (bs x : Bytes) (s : Decoder C) (h : Done cert throws bs s) :
    Done cert throws (bs ++ x) (append cert throws s x).2 ∧ ((append cert throws s x).1 = (append cert throws s x).2.err) := by
  rcases h with ⟨es, tail, ⟨h1, h2, h3⟩, hg, rfl⟩ | ⟨es, e, after, h1, h2, h3, h4, h5, h6, h7⟩
  · unfold append
    simp only [Bool.false_eq_true, if_false]
    obtain ⟨es', tail', p1, p2, p3⟩ := parts_exist _ (tail ++ x) (Nat.le_refl _)
    rcases split_bad (P := Good cert throws) es' with hall | ⟨a, e, b, q1, q2, q3⟩
    · rw [p1, decode_good cert throws tail' (fromBuffer_none p3) es' _ _ p2 hall (Nat.le_refl _)]
      refine ⟨.inl ⟨es ++ es', tail', ⟨?_, ?_, p3⟩, ?_, ?_⟩, rfl⟩
      · rw [h1, List.append_assoc, p1]; simp
      · intro y hy; rcases List.mem_append.mp hy with hy | hy
        · exact h2 y hy
        · exact p2 y hy
      · intro y hy; rcases List.mem_append.mp hy with hy | hy
        · exact hg y hy
        · exact hall y hy
      · simp [certsOf]
    · subst q1
      have e0 : tail ++ x = (a.map Raw.wire).flatten ++ (e.wire ++ ((b.map Raw.wire).flatten ++ tail')) := by rw [p1]; simp
      have he : TlvForm e.wire e.type e.value := p2 e (by simp)
      have ha : ∀ y ∈ a, TlvForm y.wire y.type y.value := fun y hy => p2 y (List.mem_append_left _ hy)
      rw [e0, decode_bad cert throws e he q3 _ a _ _ ha q2 (Nat.le_refl _)]
      refine ⟨.inr ⟨es ++ a, e, (b.map Raw.wire).flatten ++ tail', ?_, ?_, ?_, he, q3, rfl, ?_⟩, rfl⟩
      · rw [h1, List.append_assoc, e0]; simp
      · intro y hy; rcases List.mem_append.mp hy with hy | hy
        · exact h2 y hy
        · exact ha y hy
      · intro y hy; rcases List.mem_append.mp hy with hy | hy
        · exact hg y hy
        · exact q2 y hy
      · simp [certsOf]
  · unfold append
    rw [if_pos h6]
    refine ⟨.inr ⟨es, e, after ++ x, ?_, h2, h3, h4, h5, h6, h7⟩, ?_⟩
    · rw [h1]; simp
    · exact h6.symm

theorem init_done (cert : Raw → Option C) (throws : C → Bool) : Done cert throws [] init :=
  .inl ⟨[], [], ⟨rfl, (fun e h => by cases h), fun w t v rest hf e => by
    have := form_pos (e := ⟨t, w, v⟩) hf
    have h0 := (List.append_eq_nil_iff.mp e.symm).1
    dsimp only at this
    rw [h0] at this
    cases this⟩, (fun e h => by cases h), rfl⟩

theorem run_done (cert : Raw → Option C) (throws : C → Bool) (l : List Bytes) : Done cert throws l.flatten (run cert throws init l) := by
  suffices H : ∀ (l : List Bytes) bs s, Done cert throws bs s → Done cert throws (bs ++ l.flatten) (run cert throws s l) by
    exact H l [] init (init_done cert throws)
  intro l
  induction l with
  | nil => intro bs s h; rw [List.flatten_nil, List.append_nil]; exact h
  | cons x l ih =>
    intro bs s h
    rw [List.flatten_cons, ← List.append_assoc]
    exact ih _ _ (append_done cert throws bs x s h).1

/-- There is only one way to take octets apart, up to a certain element. -/
theorem parts_unique {es es' : List Raw} {t t' : Bytes} (he : ∀ e ∈ es, TlvForm e.wire e.type e.value) (he' : ∀ e ∈ es', TlvForm e.wire e.type e.value)
    (h : (es.map Raw.wire).flatten ++ t = (es'.map Raw.wire).flatten ++ t') : (∃ c, es' = es ++ c ∧ t = (c.map Raw.wire).flatten ++ t') ∨
      ∃ c, es = es' ++ c ∧ t' = (c.map Raw.wire).flatten ++ t := by
  induction es generalizing es' with
  | nil => exact .inl ⟨es', rfl, by simpa using h⟩
  | cons e es ih =>
    cases es' with
    | nil => exact .inr ⟨e :: es, rfl, by simpa using h.symm⟩
    | cons e' es' =>
      simp only [List.map_cons, List.flatten_cons, List.append_assoc] at h
      have h1 := fromBuffer_iff (r := e) (rest := (es.map Raw.wire).flatten ++ t) |>.mpr ⟨rfl, he e List.mem_cons_self⟩
      have h2 := fromBuffer_iff (r := e') (rest := (es'.map Raw.wire).flatten ++ t') |>.mpr ⟨rfl, he' e' List.mem_cons_self⟩
      rw [h, h2] at h1
      simp only [Option.some.injEq, Prod.mk.injEq] at h1
      obtain ⟨rfl, h3⟩ := h1
      rcases ih (fun x hx => he x (List.mem_cons_of_mem _ hx)) (fun x hx => he' x (List.mem_cons_of_mem _ hx)) h3.symm with ⟨c, h4, h5⟩ | ⟨c, h4, h5⟩
      · exact .inl ⟨c, by rw [h4]; rfl, h5⟩
      · exact .inr ⟨c, by rw [h4]; rfl, h5⟩

end Ndn.Bundle
