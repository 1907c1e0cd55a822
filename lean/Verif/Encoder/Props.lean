import Verif.Tlv.Lemmas
import Verif.Encoder.Model
/-
C04: the Encoder is a byte deque.
-/
namespace Ndn.Encoder
open Tlv

/-- Specification: the same call on a plain byte list. -/
def Spec.deque (l : Bytes) : Op → Bytes
  | .prependBytes bs => bs ++ l
  | .appendBytes bs => l ++ bs
  | .prependVar n => writeVarNumber n ++ l
  | .appendVar n => l ++ writeVarNumber n
  | .prependNni n => writeNonNegativeInteger n ++ l
  | .appendNni n => l ++ writeNonNegativeInteger n
  | .reserveFront _ => l
  | .reserveBack _ => l
  | .reserve _ _ => l

/-- The iterators are within the buffer and in order. -/
def Inv (s : State) : Prop := s.begin_ ≤ s.end_ ∧ s.end_ ≤ s.buffer.length

theorem init_inv (a b : Nat) : Inv (init a b) ∧ contents (init a b) = [] := by
  unfold Inv init contents
  simp

theorem reserve_ok {s : State} (h : Inv s) (n : Nat) (f : Bool) :
    Inv (reserve s n f) ∧ contents (reserve s n f) = contents s ∧
      (f = true → (reserve s n f).begin_ = s.begin_ + (n - s.buffer.length)) ∧
      (f = false → (reserve s n f).end_ = s.end_ ∧
        (reserve s n f).buffer.length = max n s.buffer.length) := by
  obtain ⟨h1, h2⟩ := h
  have hsize : (if n < s.buffer.length then s.buffer.length else n) = max n s.buffer.length := by
    split <;> omega
  cases f with
  | true =>
    simp only [reserve, if_true, hsize]
    refine ⟨?_, ?_, ?_, by simp⟩
    · unfold Inv; simp; omega
    · unfold contents
      simp only
      have e1 : max n s.buffer.length - (s.buffer.length - s.end_) -
          (max n s.buffer.length - (s.buffer.length - s.begin_)) = s.end_ - s.begin_ := by omega
      have e2 : max n s.buffer.length - (s.buffer.length - s.begin_) =
          (max n s.buffer.length - s.buffer.length) + s.begin_ := by omega
      rw [e1, e2]
      congr 1
      rw [List.drop_append]
      simp
    · intro _; omega
  | false =>
    simp only [reserve, Bool.false_eq_true, if_false, hsize]
    refine ⟨?_, ?_, by simp, ?_⟩
    · unfold Inv; simp; omega
    · unfold contents
      simp only
      rw [List.drop_append_of_le_length (by omega), List.take_append_of_le_length (by simp; omega)]
    · intro _; simp; omega

theorem reserveFront_ok {s : State} (h : Inv s) (n : Nat) :
    Inv (reserveFront s n) ∧ contents (reserveFront s n) = contents s ∧
      n ≤ (reserveFront s n).begin_ := by
  unfold reserveFront
  split
  · obtain ⟨a, b, c, _⟩ := reserve_ok h (s.buffer.length * 2 + n) true
    refine ⟨a, b, ?_⟩
    rw [c rfl]; omega
  · exact ⟨h, rfl, by omega⟩

theorem reserveBack_ok {s : State} (h : Inv s) (n : Nat) :
    Inv (reserveBack s n) ∧ contents (reserveBack s n) = contents s ∧
      (reserveBack s n).end_ + n ≤ (reserveBack s n).buffer.length := by
  unfold reserveBack
  have := h.2
  split
  · obtain ⟨a, b, _, c⟩ := reserve_ok h (s.buffer.length * 2 + n) false
    refine ⟨a, b, ?_⟩
    rw [(c rfl).1, (c rfl).2]; omega
  · exact ⟨h, rfl, by omega⟩

theorem prependBytes_ok {s : State} (h : Inv s) (bs : Bytes) :
    ∃ s', prependBytes s bs = some (s', bs.length) ∧ Inv s' ∧ contents s' = bs ++ contents s := by
  obtain ⟨⟨a1, a2⟩, b, c⟩ := reserveFront_ok h bs.length
  unfold prependBytes
  simp only
  rw [if_neg (by omega)]
  unfold writeAt
  rw [if_neg (by omega)]
  refine ⟨_, rfl, ?_, ?_⟩
  · unfold Inv; simp; omega
  · rw [← b]
    unfold contents
    simp only
    have e : (reserveFront s bs.length).begin_ - bs.length + bs.length =
      (reserveFront s bs.length).begin_ := by omega
    rw [e, List.append_assoc, List.drop_append_of_le_length (by simp; omega)]
    rw [List.drop_eq_nil_of_le (by simp; omega), List.nil_append]
    rw [show (reserveFront s bs.length).end_ - ((reserveFront s bs.length).begin_ - bs.length) =
      bs.length + ((reserveFront s bs.length).end_ - (reserveFront s bs.length).begin_) by omega]
    rw [List.take_length_add_append]

theorem appendBytes_ok {s : State} (h : Inv s) (bs : Bytes) :
    ∃ s', appendBytes s bs = some (s', bs.length) ∧ Inv s' ∧ contents s' = contents s ++ bs := by
  obtain ⟨⟨a1, a2⟩, b, c⟩ := reserveBack_ok h bs.length
  unfold appendBytes
  simp only
  unfold writeAt
  rw [if_neg (by omega)]
  refine ⟨_, rfl, ?_, ?_⟩
  · unfold Inv; simp; omega
  · rw [← b]
    unfold contents
    simp only
    generalize reserveBack s bs.length = r at *
    rw [List.append_assoc, List.drop_append_of_le_length (by simp; omega)]
    rw [show r.end_ + bs.length - r.begin_ = (r.end_ - r.begin_) + bs.length by omega]
    have e : (List.drop r.begin_ (List.take r.end_ r.buffer)).length = r.end_ - r.begin_ := by
      simp; omega
    rw [← e, List.take_length_add_append, e, List.take_left']
    · rw [List.drop_take]
    · rfl

theorem prepend_two {s : State} (h : Inv s) (a b : Bytes) (k : Nat) :
    ∃ s', (do
      let (s, _) ← prependBytes s a
      let (s, _) ← prependBytes s b
      return (s, k)) = some (s', k) ∧ Inv s' ∧ contents s' = b ++ a ++ contents s := by
  obtain ⟨s1, h1, i1, c1⟩ := prependBytes_ok h a
  obtain ⟨s2, h2, i2, c2⟩ := prependBytes_ok i1 b
  exact ⟨s2, by simp [h1, h2], i2, by rw [c2, c1]; simp⟩

theorem append_two {s : State} (h : Inv s) (a b : Bytes) (k : Nat) :
    ∃ s', (do
      let (s, _) ← appendBytes s a
      let (s, _) ← appendBytes s b
      return (s, k)) = some (s', k) ∧ Inv s' ∧ contents s' = contents s ++ (a ++ b) := by
  obtain ⟨s1, h1, i1, c1⟩ := appendBytes_ok h a
  obtain ⟨s2, h2, i2, c2⟩ := appendBytes_ok i1 b
  exact ⟨s2, by simp [h1, h2], i2, by rw [c2, c1]; simp⟩

theorem step_ok {s : State} (h : Inv s) (op : Op) :
    ∃ s', step s op = some (s', estimate op) ∧ Inv s' ∧ contents s' = Spec.deque (contents s) op := by
  cases op with
  | prependBytes bs => exact prependBytes_ok h bs
  | appendBytes bs => exact appendBytes_ok h bs
  | prependVar n =>
    simp only [step, prependVarNumber, estimate, sizeOfVarNumber, Spec.deque, writeVarNumber]
    split
    · obtain ⟨s1, h1, i1, c1⟩ := prependBytes_ok h [UInt8.ofNat n]
      exact ⟨s1, by simp [h1], i1, c1⟩
    · split
      · exact prepend_two h (beBytes 2 n) [253] 3
      · split
        · exact prepend_two h (beBytes 4 n) [254] 5
        · exact prepend_two h (beBytes 8 n) [255] 9
  | appendVar n =>
    simp only [step, appendVarNumber, estimate, sizeOfVarNumber, Spec.deque, writeVarNumber]
    split
    · obtain ⟨s1, h1, i1, c1⟩ := appendBytes_ok h [UInt8.ofNat n]
      exact ⟨s1, by simp [h1], i1, c1⟩
    · split
      · exact append_two h [253] (beBytes 2 n) 3
      · split
        · exact append_two h [254] (beBytes 4 n) 5
        · exact append_two h [255] (beBytes 8 n) 9
  | prependNni n =>
    simp only [step, prependNonNegativeInteger, estimate, sizeOfNonNegativeInteger, Spec.deque,
      writeNonNegativeInteger]
    split
    · exact prependBytes_ok h [UInt8.ofNat n]
    · split
      · exact prependBytes_ok h (beBytes 2 n)
      · split
        · exact prependBytes_ok h (beBytes 4 n)
        · exact prependBytes_ok h (beBytes 8 n)
  | appendNni n =>
    simp only [step, appendNonNegativeInteger, estimate, sizeOfNonNegativeInteger, Spec.deque,
      writeNonNegativeInteger]
    split
    · exact appendBytes_ok h [UInt8.ofNat n]
    · split
      · exact appendBytes_ok h (beBytes 2 n)
      · split
        · exact appendBytes_ok h (beBytes 4 n)
        · exact appendBytes_ok h (beBytes 8 n)
  | reserveFront n => obtain ⟨a, b, _⟩ := reserveFront_ok h n; exact ⟨_, rfl, a, b⟩
  | reserveBack n => obtain ⟨a, b, _⟩ := reserveBack_ok h n; exact ⟨_, rfl, a, b⟩
  | reserve n f => obtain ⟨a, b, _⟩ := reserve_ok h n f; exact ⟨_, rfl, a, b⟩

theorem run_ok {s : State} (h : Inv s) (ops : List Op) :
    ∃ s', run s ops = some (s', ops.map estimate) ∧ Inv s' ∧
      contents s' = ops.foldl Spec.deque (contents s) := by
  induction ops generalizing s with
  | nil => exact ⟨s, rfl, h, rfl⟩
  | cons op ops ih =>
    obtain ⟨s1, h1, i1, c1⟩ := step_ok h op
    obtain ⟨s2, h2, i2, c2⟩ := ih i1
    refine ⟨s2, ?_, i2, ?_⟩
    · simp [run, h1, h2]
    · rw [c2, c1]; rfl

/-- C04: from any reserve sizes, any sequence of calls never writes outside the buffer (the run
does not get stuck), leaves in the encoder exactly what the same calls leave in a byte list, and
every call returns the size that the Estimator returns. -/
theorem C04_deque (totalReserve reserveFromBack : Nat) (ops : List Op) :
    ∃ s, run (init totalReserve reserveFromBack) ops = some (s, ops.map estimate) ∧
      contents s = ops.foldl Spec.deque [] ∧
      s.begin_ ≤ s.end_ ∧ s.end_ ≤ s.buffer.length := by
  obtain ⟨h, hc⟩ := init_inv totalReserve reserveFromBack
  obtain ⟨s, h1, h2, h3⟩ := run_ok h ops
  exact ⟨s, h1, by rw [h3, hc], h2⟩

/-- C04: the total of the sizes returned is the number of octets in the encoder. -/
theorem C04_total_size (totalReserve reserveFromBack : Nat) (ops : List Op) :
    ∃ s, run (init totalReserve reserveFromBack) ops = some (s, ops.map estimate) ∧
      (contents s).length = (ops.map estimate).sum := by
  obtain ⟨s, h1, h2, _⟩ := C04_deque totalReserve reserveFromBack ops
  refine ⟨s, h1, ?_⟩
  rw [h2]
  have key : ∀ (ops : List Op) (l : Bytes),
      (ops.foldl Spec.deque l).length = l.length + (ops.map estimate).sum := by
    intro ops
    induction ops with
    | nil => simp
    | cons op ops ih =>
      intro l
      simp only [List.foldl_cons, List.map_cons, List.sum_cons]
      rw [ih]
      cases op <;> simp [Spec.deque, estimate, writeVarNumber_length, writeNonNegativeInteger_length] <;> omega
  simpa using key ops []

/-- C04: storage already reserved suffices: if at least the total size of the prepends is in front,
prepending does not move the bytes already written (the end iterator keeps its index, the buffer
its size), as `Block::encode` relies on. -/
theorem C04_no_realloc (s : State) (h : Inv s) (bs : Bytes) (hr : bs.length ≤ s.begin_) :
    ∃ s', prependBytes s bs = some (s', bs.length) ∧ s'.end_ = s.end_ ∧
      s'.begin_ = s.begin_ - bs.length ∧ s'.buffer.length = s.buffer.length ∧
      s'.buffer.drop s.begin_ = s.buffer.drop s.begin_ := by
  have := h.1
  have := h.2
  have hf : reserveFront s bs.length = s := by unfold reserveFront; rw [if_neg (by omega)]
  unfold prependBytes
  simp only [hf]
  rw [if_neg (by omega)]
  unfold writeAt
  rw [if_neg (by omega)]
  refine ⟨_, rfl, rfl, rfl, ?_, ?_⟩
  · simp; omega
  · simp only
    have hl : (s.buffer.take (s.begin_ - bs.length) ++ bs).length = s.begin_ := by simp; omega
    rw [show s.begin_ - bs.length + bs.length = s.begin_ by omega]
    rw [List.drop_left' hl]

/-- C04: an Encoder made with `total` octets, `back` of them at the back, is empty and takes the rest in front, and `back`
octets behind, without growing; if `back` is not less than `total`, all of it is in front. -/
theorem C04_initial (total back : Nat) : contents (init total back) = [] ∧
    (∀ bs : Bytes, bs.length ≤ (if back < total then total - back else total) →
      ∃ s', prependBytes (init total back) bs = some (s', bs.length) ∧ s'.buffer.length = total) ∧
    (∀ bs : Bytes, bs.length ≤ (if back < total then back else 0) →
      ∃ s', appendBytes (init total back) bs = some (s', bs.length) ∧ s'.buffer.length = total) := by
  have hb : (init total back).begin_ = if back < total then total - back else total := by
    simp only [init]; split <;> omega
  have he : (init total back).end_ = if back < total then total - back else total := by
    simp only [init]; split <;> omega
  have hl : (init total back).buffer.length = total := by simp [init]
  refine ⟨by simp [contents, hb, he], fun bs h => ?_, fun bs h => ?_⟩
  · obtain ⟨s', h1, -, -, h2, -⟩ := C04_no_realloc (init total back) ⟨by rw [hb, he]; omega, by rw [he, hl]; split <;> omega⟩ bs (by rw [hb]; exact h)
    exact ⟨s', h1, by rw [h2, hl]⟩
  · have hle : (init total back).end_ + bs.length ≤ total := by rw [he]; split at h <;> split <;> omega
    have hf : reserveBack (init total back) bs.length = init total back := by
      unfold reserveBack; rw [if_neg (by rw [hl]; omega)]
    unfold appendBytes writeAt
    simp only [hf]
    rw [if_neg (by rw [hl]; omega)]
    refine ⟨_, rfl, ?_⟩
    simp [hl]; omega

example : ∃ s, run (init 4 2) [.prependVar 300, .appendBytes [1, 2, 3], .prependNni 70000] =
    some (s, [3, 3, 4]) ∧ contents s = [0, 1, 17, 112, 253, 1, 44, 1, 2, 3] := ⟨_, rfl, by decide⟩

end Ndn.Encoder
