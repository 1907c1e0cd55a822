import Verif.Text.Spec
/-
C150: indented output.
-/
namespace Ndn.Text
open Spec

private theorem pieces_spec : ∀ t : Bytes, ∃ ls last, pieces t = ls ++ [last] ∧ t = ls.flatMap (· ++ [10]) ++ last ∧
    (∀ l ∈ ls, ∀ c ∈ l, c ≠ 10) ∧ ∀ c ∈ last, c ≠ 10
  | [] => ⟨[], [], rfl, rfl, by simp, by simp⟩
  | c :: t => by
    obtain ⟨ls, last, h1, h2, h3, h4⟩ := pieces_spec t
    unfold pieces
    by_cases hc : c = 10
    · rw [if_pos hc, h1]
      refine ⟨[] :: ls, last, rfl, by rw [hc]; simpa using h2, ?_, h4⟩
      intro l hl
      rcases List.mem_cons.1 hl with rfl | hl
      · simp
      · exact h3 l hl
    · rw [if_neg hc, h1]
      cases ls with
      | nil =>
        refine ⟨[], c :: last, rfl, by simpa using h2, by simp, ?_⟩
        intro d hd
        rcases List.mem_cons.1 hd with rfl | hd
        · exact hc
        · exact h4 d hd
      | cons l ls =>
        refine ⟨(c :: l) :: ls, last, rfl, by simpa using h2, ?_, h4⟩
        intro l' hl'
        rcases List.mem_cons.1 hl' with rfl | hl'
        · intro d hd
          rcases List.mem_cons.1 hd with rfl | hd
          · exact hc
          · exact h3 l (by simp) d hd
        · exact h3 l' (by simp [hl'])

private theorem lines_of : ∀ ls : List Bytes, (∀ l ∈ ls, ∀ c ∈ l, c ≠ 10) → Lines (ls.flatMap (· ++ [10])) ls
  | [], _ => .nil
  | l :: ls, h => by
    have := Lines.cons (h l (by simp)) (lines_of ls fun l hl => h l (by simp [hl]))
    rw [List.flatMap_cons, List.append_assoc]
    exact this

private theorem lines_inv {t : Bytes} {ls : List Bytes} (h : Lines t ls) : t = ls.flatMap (· ++ [10]) ∧ ∀ l ∈ ls, ∀ c ∈ l, c ≠ 10 := by
  induction h with
  | nil => exact ⟨rfl, by simp⟩
  | cons h1 _ ih =>
    refine ⟨by rw [List.flatMap_cons, ← ih.1]; simp, ?_⟩
    intro l hl
    rcases List.mem_cons.1 hl with rfl | hl
    · exact h1
    · exact ih.2 l hl

/-- A text is divided into lines in one way. -/
private theorem lines_unique {t : Bytes} {ls ls' : List Bytes} (h : Lines t ls) (h' : Lines t ls') : ls = ls' := by
  induction h generalizing ls' with
  | nil =>
    generalize he : ([] : Bytes) = e at h'
    cases h' with
    | nil => rfl
    | cons => simp at he
  | @cons l s ls hl _ ih =>
    generalize he : l ++ 10 :: s = e at h'
    cases h' with
    | nil => simp at he
    | @cons l' s' ls' hl' h' =>
      have key : ∀ (l l' : Bytes), (∀ c ∈ l, c ≠ 10) → (∀ c ∈ l', c ≠ 10) → l ++ 10 :: s = l' ++ 10 :: s' → l = l' ∧ s = s' := by
        intro l
        induction l with
        | nil =>
          intro l' _ h2 h3
          cases l' with
          | nil => simp at h3; exact ⟨rfl, h3⟩
          | cons c l' =>
            simp only [List.nil_append, List.cons_append, List.cons.injEq] at h3
            exact absurd h3.1.symm (h2 c (by simp))
        | cons c l ih =>
          intro l' h1 h2 h3
          cases l' with
          | nil =>
            simp only [List.nil_append, List.cons_append, List.cons.injEq] at h3
            exact absurd h3.1 (h1 c (by simp))
          | cons c' l' =>
            simp only [List.cons_append, List.cons.injEq] at h3
            obtain ⟨g1, g2⟩ := ih l' (fun d hd => h1 d (by simp [hd])) (fun d hd => h2 d (by simp [hd])) h3.2
            rw [h3.1, g1]; exact ⟨rfl, g2⟩
      obtain ⟨rfl, rfl⟩ := key l l' hl hl' he
      rw [ih h']

/-- A text with its last line ended. -/
def completed (t : Bytes) : Bytes := if t = [] ∨ t.getLast? = some 10 then t else t ++ [10]

private theorem flushLines_spec (t : Bytes) : Lines (completed t) (flushLines t) := by
  obtain ⟨ls, last, h1, h2, h3, h4⟩ := pieces_spec t
  have hfl : flushLines t = if last = [] then ls else ls ++ [last] := by
    unfold flushLines
    rw [h1]
    dsimp only
    rw [List.dropLast_concat]
    by_cases hl : last = []
    · rw [if_pos hl, if_pos (by simp [hl])]
    · rw [if_neg hl, if_neg (by simp [hl])]
  rw [hfl]
  unfold completed
  by_cases hl : last = []
  · subst hl
    rw [if_pos (rfl : ([] : Bytes) = [])]
    rw [List.append_nil] at h2
    have hend : t = [] ∨ t.getLast? = some 10 := by
      rcases List.eq_nil_or_concat ls with rfl | ⟨ls', l, rfl⟩
      · left; exact h2
      · right; rw [h2]; simp [List.flatMap_append, List.getLast?_append]
    rw [if_pos hend, h2]
    exact lines_of ls h3
  · rw [if_neg hl]
    have hg : t.getLast? = last.getLast? := by
      rw [h2, List.getLast?_append]
      cases hh : last.getLast? with
      | none => rw [List.getLast?_eq_none_iff] at hh; exact absurd hh hl
      | some c => rfl
    have hend : ¬ (t = [] ∨ t.getLast? = some 10) := by
      rintro (e | e)
      · rw [e] at h2
        have := congrArg List.length h2
        simp at this
        exact hl (List.length_eq_zero_iff.1 (by omega))
      · rw [hg] at e
        have := List.mem_of_getLast? e
        exact h4 10 this rfl
    rw [if_neg hend]
    have := lines_of (ls ++ [last]) (by
      intro l hl
      rcases List.mem_append.1 hl with hl | hl
      · exact h3 l hl
      · simp at hl; subst hl; exact h4)
    rw [List.flatMap_append] at this
    rw [h2]
    simpa [List.append_assoc] using this

private theorem run_chunks (indent : Bytes) : ∀ (ops : List IOp) (s : Ind),
    ((ops.foldl (Ind.step indent) s).sync indent).out =
      s.out ++ (chunks ops s.buf).flatMap fun t => (flushLines t).flatMap fun l => indent ++ l ++ [10]
  | [], s => by simp [Ind.sync, chunks]
  | .write t :: ops, s => by
    rw [List.foldl_cons, run_chunks indent ops]; rfl
  | .flush :: ops, s => by
    rw [List.foldl_cons, run_chunks indent ops]
    simp [Ind.step, Ind.sync, chunks, List.append_assoc]

/-- What is written until a flush or the end arrives with every line indented; a last line without newline gets one. -/
theorem C150_output (indent : Bytes) (ops : List IOp) :
    ∃ lines : Bytes → List Bytes, (∀ t, Lines (completed t) (lines t)) ∧
      indented indent ops = (chunks ops []).flatMap fun t => (lines t).flatMap fun l => indent ++ l ++ [10] :=
  ⟨flushLines, flushLines_spec, by unfold indented; rw [run_chunks]; rfl⟩

private theorem flatMap_chunks : ∀ (ops : List IOp) (acc : Bytes), (chunks ops acc).flatten = acc ++ written ops
  | [], acc => by simp [chunks, written]
  | .write t :: ops, acc => by rw [chunks, flatMap_chunks ops]; simp [written]
  | .flush :: ops, acc => by rw [chunks, List.flatten_cons, flatMap_chunks ops]; simp [written]

/-- If the stream is flushed at line ends only, and no text without newline is left at the end, the output is the text written with every line
indented, however it was divided into writes and whenever it was flushed. -/
theorem C150_lines_partial (indent : Bytes) (ops : List IOp) (h : ∀ t ∈ chunks ops [], AtLineEnd t) (ls : List Bytes)
    (hl : Lines (written ops) ls) : indented indent ops = ls.flatMap fun l => indent ++ l ++ [10] := by
  obtain ⟨lines, h1, h2⟩ := C150_output indent ops
  rw [h2]
  have key : ∀ ts : List Bytes, (∀ t ∈ ts, AtLineEnd t) → Lines ts.flatten (ts.flatMap lines) := by
    intro ts hts
    have : ∀ t ∈ ts, t = (lines t).flatMap (· ++ [10]) ∧ ∀ l ∈ lines t, ∀ c ∈ l, c ≠ 10 := by
      intro t ht
      have := h1 t
      unfold completed at this
      rw [if_pos (show t = [] ∨ t.getLast? = some 10 from hts t ht)] at this
      exact lines_inv this
    have e : ts.flatten = (ts.flatMap lines).flatMap (· ++ [10]) := by
      rw [List.flatMap_assoc, List.flatMap]
      congr 1
      conv => lhs; rw [← List.map_id ts]
      exact List.map_congr_left fun t ht => (this t ht).1
    rw [e]
    refine lines_of _ fun l hl => ?_
    obtain ⟨t, ht, hl⟩ := List.mem_flatMap.1 hl
    exact (this t ht).2 l hl
  have h3 := key _ h
  rw [flatMap_chunks, List.nil_append] at h3
  rw [lines_unique hl h3, List.flatMap_assoc]

/-- An indented stream on an indented stream: the lines are indented by both. -/
theorem C150_nested (outer inner : Bytes) (hi : ∀ c ∈ inner, c ≠ 10) (ops : List IOp) (h : ∀ t ∈ chunks ops [], AtLineEnd t)
    (ls : List Bytes) (hl : Lines (written ops) ls) :
    indented outer [.write (indented inner ops)] = ls.flatMap fun l => outer ++ inner ++ l ++ [10] := by
  have h1 := C150_lines_partial inner ops h ls hl
  obtain ⟨h2, h3⟩ := lines_inv hl
  have h4 : Lines (indented inner ops) (ls.map (inner ++ ·)) := by
    rw [h1]
    have := lines_of (ls.map (inner ++ ·)) (by
      intro l hl c hc
      obtain ⟨l', hl', rfl⟩ := List.mem_map.1 hl
      rcases List.mem_append.1 hc with hc | hc
      · exact hi c hc
      · exact h3 l' hl' c hc)
    rw [List.flatMap_map] at this
    exact this
  have h5 : AtLineEnd (indented inner ops) := by
    rw [(lines_inv h4).1]
    rcases List.eq_nil_or_concat ls with rfl | ⟨ls', l, rfl⟩
    · exact .inl rfl
    · right; simp [List.flatMap_append, List.getLast?_append]
  have := C150_lines_partial outer [.write (indented inner ops)] (by intro t ht; simp [chunks] at ht; subst ht; exact h5)
    (ls.map (inner ++ ·)) (by simpa [written] using h4)
  rw [this, List.flatMap_map]
  simp only [List.append_assoc]

/-- The claim for any flushing. -/
def C150_flush_claim : Prop := ∀ (indent : Bytes) (ops : List IOp) (ls : List Bytes), Lines (written ops) ls →
  indented indent ops = ls.flatMap fun l => indent ++ l ++ [10]

/-- A flush in the middle of a line ends the line: a newline is put in and what follows is indented again. So the output depends on when the
stream is flushed (for instance by a `std::flush`, or by a stream tied to it). -/
theorem C150_flush_counterexample : ¬ C150_flush_claim := by
  intro h
  have := h [32] [.write [97], .flush, .write [98, 10]] [[97, 98]] (Lines.cons (l := [97, 98]) (by decide) .nil)
  revert this
  decide

/-- Two lines and a line that is not ended; a flush at a line end. -/
example : indented [45] [.write [97, 10, 10], .flush, .write [98]] = [45, 97, 10, 45, 10, 45, 98, 10] ∧
    indented [45] [] = [] := by decide

example : (∀ t ∈ chunks [.write [97, 10], .flush, .write [98], .write [10]] [], AtLineEnd t) ∧
    Lines (written [.write [97, 10], .flush, .write [98], .write [10]]) [[97], [98]] :=
  ⟨by unfold AtLineEnd; decide, Lines.cons (l := [97]) (by decide) (Lines.cons (l := [98]) (by decide) .nil)⟩

end Ndn.Text
