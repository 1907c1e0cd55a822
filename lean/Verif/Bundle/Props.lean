import Verif.Bundle.Lemmas
/-
C131: bundles of certificates, decoded as their segments arrive.
-/
namespace Ndn.Bundle
open Ndn.Block Ndn.Block.Spec Ndn.Tlv Ndn.Tlv.Spec Spec

variable {C : Type}

theorem no_tail {c : List Raw} {tail t' : Bytes} (hc : ∀ e ∈ c, TlvForm e.wire e.type e.value) (h : tail = (c.map Raw.wire).flatten ++ t')
    (hn : ∀ w t v rest, TlvForm w t v → tail ≠ w ++ rest) : c = [] ∧ tail = t' := by
  cases c with
  | nil => exact ⟨rfl, by simpa using h⟩
  | cons e c =>
    exfalso
    refine hn e.wire e.type e.value ((c.map Raw.wire).flatten ++ t') (hc e List.mem_cons_self) ?_
    rw [h]; simp

/-- The certificates of a bundle: if the octets appended so far, cut into segments anyhow, are whole elements that may be in a bundle
followed by octets that are not yet an element, then the certificates among the elements were emitted, each once and in order, there is no
error, and just those last octets are kept. -/
theorem C131_certificates (cert : Raw → Option C) (throws : C → Bool) (l : List Bytes) (es : List Raw) (tail : Bytes)
    (hp : Parts l.flatten es tail) (hg : ∀ e ∈ es, Good cert throws e) :
    run cert throws init l = ⟨tail, false, certsOf cert es⟩ := by
  obtain ⟨h1, h2, h3⟩ := hp
  rcases run_done cert throws l with ⟨es', tail', ⟨g1, g2, g3⟩, _, hs⟩ | ⟨es', e, after, g1, g2, g3, g4, g5, _, _⟩
  · rw [hs]
    rcases parts_unique h2 g2 (h1.symm.trans g1) with ⟨c, c1, c2⟩ | ⟨c, c1, c2⟩
    · obtain ⟨rfl, rfl⟩ := no_tail (fun e he => g2 e (by rw [c1]; exact List.mem_append_right _ he)) c2 h3
      rw [c1, List.append_nil]
    · obtain ⟨rfl, rfl⟩ := no_tail (fun e he => h2 e (by rw [c1]; exact List.mem_append_right _ he)) c2 g3
      rw [c1, List.append_nil]
  · exfalso
    have g1' : l.flatten = ((es' ++ [e]).map Raw.wire).flatten ++ after := by rw [g1]; simp
    have g2' : ∀ x ∈ es' ++ [e], TlvForm x.wire x.type x.value := by
      intro x hx
      rcases List.mem_append.mp hx with hx | hx
      · exact g2 x hx
      · rw [List.mem_singleton.mp hx]; exact g4
    rcases parts_unique h2 g2' (h1.symm.trans g1') with ⟨c, c1, c2⟩ | ⟨c, c1, c2⟩
    · obtain ⟨rfl, _⟩ := no_tail (fun x he => g2' x (by rw [c1]; exact List.mem_append_right _ he)) c2 h3
      rw [List.append_nil] at c1
      exact g5 (hg e (by rw [← c1]; simp))
    · exact g5 (hg e (by rw [c1]; simp))

/-- An element that may not be in a bundle (of a critical type, or not a certificate, or one with which a handler throws): the certificates
before it were emitted (and itself, if it is one), nothing after it, and the decoder has an error. -/
theorem C131_rejected (cert : Raw → Option C) (throws : C → Bool) (l : List Bytes) (es : List Raw) (e : Raw) (after : Bytes)
    (hb : l.flatten = (es.map Raw.wire).flatten ++ (e.wire ++ after)) (hf : ∀ x ∈ es, TlvForm x.wire x.type x.value)
    (hg : ∀ x ∈ es, Good cert throws x) (he : TlvForm e.wire e.type e.value) (hbad : ¬ Good cert throws e) :
    (run cert throws init l).err = true ∧ (run cert throws init l).out = certsOf cert (es ++ [e]) := by
  have hb' : l.flatten = ((es ++ [e]).map Raw.wire).flatten ++ after := by rw [hb]; simp
  have hf' : ∀ x ∈ es ++ [e], TlvForm x.wire x.type x.value := by
    intro x hx
    rcases List.mem_append.mp hx with hx | hx
    · exact hf x hx
    · rw [List.mem_singleton.mp hx]; exact he
  rcases run_done cert throws l with ⟨es', tail', ⟨g1, g2, g3⟩, g4, hs⟩ | ⟨es', e', after', g1, g2, g3, g4, g5, g6, g7⟩
  · exfalso
    rcases parts_unique hf' g2 (hb'.symm.trans g1) with ⟨c, c1, c2⟩ | ⟨c, c1, c2⟩
    · exact hbad (g4 e (by rw [c1]; simp))
    · obtain ⟨rfl, _⟩ := no_tail (fun x hx => hf' x (by rw [c1]; exact List.mem_append_right _ hx)) c2 g3
      rw [List.append_nil] at c1
      exact hbad (g4 e (by rw [← c1]; simp))
  · refine ⟨g6, ?_⟩
    rw [g7]
    -- the first bad element is the same
    have key : ∀ (a b : List Raw) (x y : Raw) (c : List Raw), (∀ z ∈ a, Good cert throws z) → (∀ z ∈ b, Good cert throws z) → ¬ Good cert throws x →
        ¬ Good cert throws y → b ++ [y] = a ++ [x] ++ c → b ++ [y] = a ++ [x] := by
      intro a
      induction a with
      | nil =>
        intro b x y c _ hb hx hy h
        cases b with
        | nil =>
          simp only [List.nil_append, List.cons_append, List.cons.injEq] at h
          rw [h.1]
        | cons b0 b =>
          simp only [List.nil_append, List.cons_append, List.cons.injEq] at h
          exact absurd (hb b0 List.mem_cons_self) (by rw [h.1]; exact hx)
      | cons a0 a ih =>
        intro b x y c ha hb hx hy h
        cases b with
        | nil =>
          simp only [List.nil_append, List.cons_append, List.cons.injEq] at h
          exact absurd (ha a0 List.mem_cons_self) (by rw [← h.1]; exact hy)
        | cons b0 b =>
          simp only [List.cons_append, List.cons.injEq] at h ⊢
          exact ⟨h.1, ih b x y c (fun z hz => ha z (List.mem_cons_of_mem _ hz)) (fun z hz => hb z (List.mem_cons_of_mem _ hz)) hx hy h.2⟩
    have g1' : l.flatten = ((es' ++ [e']).map Raw.wire).flatten ++ after' := by rw [g1]; simp
    have g2' : ∀ x ∈ es' ++ [e'], TlvForm x.wire x.type x.value := by
      intro x hx
      rcases List.mem_append.mp hx with hx | hx
      · exact g2 x hx
      · rw [List.mem_singleton.mp hx]; exact g4
    rcases parts_unique hf' g2' (hb'.symm.trans g1') with ⟨c, c1, _⟩ | ⟨c, c1, _⟩
    · rw [key es es' e e' c hg g3 hbad g5 c1]
    · rw [key es' es e' e c g3 hg g5 hbad c1]

/-- How the octets are cut into segments does not matter. -/
theorem C131_segments (cert : Raw → Option C) (throws : C → Bool) (l l' : List Bytes) (h : l.flatten = l'.flatten) :
    (run cert throws init l).out = (run cert throws init l').out ∧ (run cert throws init l).err = (run cert throws init l').err := by
  rcases run_done cert throws l with ⟨es, tail, hp, hg, hs⟩ | ⟨es, e, after, g1, g2, g3, g4, g5, g6, g7⟩
  · rw [C131_certificates cert throws l' es tail (h ▸ hp) hg, hs]
    exact ⟨rfl, rfl⟩
  · obtain ⟨k1, k2⟩ := C131_rejected cert throws l' es e after (h ▸ g1) g2 g3 g4 g5
    rw [k1, k2]
    exact ⟨g7, g6⟩

/-- Errors are reported and final: `append` throws exactly if the decoder has an error afterwards, and a decoder with an error throws
always, and emits nothing more. -/
theorem C131_errors (cert : Raw → Option C) (throws : C → Bool) (l : List Bytes) (x : Bytes) :
    ((append cert throws (run cert throws init l) x).1 = true ↔ (append cert throws (run cert throws init l) x).2.err = true) ∧
    ((run cert throws init l).err = true → append cert throws (run cert throws init l) x = (true, run cert throws init l)) := by
  refine ⟨?_, ?_⟩
  · rw [(append_done cert throws l.flatten x _ (run_done cert throws l)).2]
  · intro h
    unfold append
    rw [if_pos h]

/-- For the examples: elements of type 6 with one octet are certificates, the octet 9 makes a handler throw. -/
def cert1 (e : Raw) : Option UInt8 := if e.value.length = 1 then e.value.head? else none

example : run cert1 (· == 9) init [[6, 1], [1, 128, 0, 6], [1, 2, 6]] = ⟨[6], false, [1, 2]⟩ := by decide
example : run cert1 (· == 9) init [[6, 1], [1, 129, 0, 6], [1, 2, 6]] = ⟨[6], true, [1]⟩ := by decide
example : run cert1 (· == 9) init [[6, 1, 9, 6, 1, 3], [6, 1, 4]] = ⟨[6, 1, 3], true, [9]⟩ := by decide
/-- The conditions of the theorems are met. -/
example : Parts [6, 1, 1, 128, 0, 6] [⟨6, [6, 1, 1], [1]⟩, ⟨128, [128, 0], []⟩] [6] ∧
    (∀ e ∈ [(⟨6, [6, 1, 1], [1]⟩ : Raw), ⟨128, [128, 0], []⟩], Good cert1 (· == 9) e) ∧ ¬ Good cert1 (· == 9) ⟨129, [129, 0], []⟩ := by
  refine ⟨⟨rfl, ?_, ?_⟩, ?_, ?_⟩
  · intro e he
    have h1 := fromBuffer_iff (bs := [6, 1, 1]) (r := ⟨6, [6, 1, 1], [1]⟩) (rest := []) |>.mp (by decide)
    have h2 := fromBuffer_iff (bs := [128, 0]) (r := ⟨128, [128, 0], []⟩) (rest := []) |>.mp (by decide)
    rcases List.mem_cons.mp he with rfl | he
    · exact h1.2
    · rw [List.mem_singleton.mp he]; exact h2.2
  · intro w t v rest hf e
    have := fromBuffer_iff (bs := [6]) (r := ⟨t, w, v⟩) (rest := rest) |>.mpr ⟨e, hf⟩
    revert this
    have : fromBuffer [6] = none := by decide
    rw [this]
    intro h
    cases h
  · intro e he
    rcases List.mem_cons.mp he with rfl | he
    · exact .inl ⟨rfl, 1, rfl, rfl⟩
    · rw [List.mem_singleton.mp he]; exact .inr ⟨by decide, by decide, by decide⟩
  · rintro (⟨h, _⟩ | ⟨_, _, h⟩)
    · cases h
    · cases h

/-- The full claim: as long as there is no error, the octets kept are the beginning of an element, so that the bundle can still be decoded
to its end. -/
def C131_stuck_claim : Prop := ∀ (cert : Raw → Option UInt8) (throws : UInt8 → Bool) (l : List Bytes), (run cert throws init l).err = false →
  (run cert throws init l).buf ≠ [] → ∃ more w t v rest, TlvForm w t v ∧ (run cert throws init l).buf ++ more = w ++ rest

/-- Octets that cannot be an element (its type would be 0 or too large) are not reported: the decoder waits, without an error, for an end
that never comes, and takes in all segments of the bundle without any of their certificates. -/
theorem C131_stuck_counterexample : ¬ C131_stuck_claim := by
  intro h
  obtain ⟨more, w, t, v, rest, hf, he⟩ := h cert1 (fun _ => false) [[6, 1, 1, 0, 0]] (by decide) (by decide)
  have := fromBuffer_iff (r := ⟨t, w, v⟩) (rest := rest) |>.mpr ⟨he, hf⟩
  have hb : (run cert1 (fun _ => false) init [[6, 1, 1, 0, 0]]).buf = [0, 0] := by decide
  rw [hb] at this
  change fromBuffer (0 :: 0 :: more) = _ at this
  have hn : fromBuffer (0 :: 0 :: more) = none := by
    unfold fromBuffer readType readVarNumber
    rfl
  rw [hn] at this
  cases this

theorem read_enough (bs : Bytes) : ∃ n rest, readVarNumber (bs ++ List.replicate 9 0) = some (n, rest) := by
  cases bs with
  | nil => exact ⟨0, List.replicate 8 0, by decide⟩
  | cons a bs =>
    rw [List.cons_append]
    simp only [readVarNumber]
    split
    · exact ⟨_, _, rfl⟩
    · rename_i h
      unfold readNumber
      have hlt := UInt8.toNat_lt a
      rcases and_three_cases a.toNat (by omega) (by omega) with hx | hx | hx <;>
      · rw [if_neg (by
                    rw [List.length_append, List.length_replicate]
                    have h1 : (1 <<< (253 &&& 3) : Nat) = 2 := by decide
                    have h2 : (1 <<< (254 &&& 3) : Nat) = 4 := by decide
                    have h3 : (1 <<< (255 &&& 3) : Nat) = 8 := by decide
                    simp only [hx, h1, h2, h3]; omega)]
        exact ⟨_, _, rfl⟩

/-- If a legal type can still come out of the octets kept, they are the beginning of an element. -/
theorem C131_stuck_partial (cert : Raw → Option C) (throws : C → Bool) (l : List Bytes)
    (hl : ∃ more t n rest, VarForm t n ∧ 1 ≤ n ∧ n ≤ 2 ^ 32 - 1 ∧ (run cert throws init l).buf ++ more = t ++ rest) :
    ∃ more w t v rest, TlvForm w t v ∧ (run cert throws init l).buf ++ more = w ++ rest := by
  obtain ⟨more, t, n, rest, h1, h2, h3, h4⟩ := hl
  obtain ⟨k, rest', hk⟩ := read_enough rest
  obtain ⟨pre, hp1, hp2⟩ := readVarNumber_iff.mp hk
  refine ⟨more ++ List.replicate 9 0 ++ List.replicate k 0, t ++ pre ++ (rest' ++ List.replicate k 0).take k, n, _, (rest' ++ List.replicate k 0).drop k,
    ⟨t, pre, rfl, h1, h2, h3, ?_⟩, ?_⟩
  · have : ((rest' ++ List.replicate k (0 : UInt8)).take k).length = k := by
      rw [List.length_take, List.length_append, List.length_replicate]; omega
    rw [this]
    exact hp2
  · rw [List.append_assoc (t ++ pre), List.take_append_drop]
    simp only [← List.append_assoc]
    rw [h4, List.append_assoc t rest, hp1]
    simp

example : (run cert1 (fun _ => false) init [[6, 1, 1, 6, 5]]).buf = [6, 5] := by decide

end Ndn.Bundle
