import Verif.Block.Lemmas
import Verif.Block.ObjSpec
namespace Ndn.Block
open Tlv Tlv.Spec Spec
namespace Obj

theorem canonical_eq (l : List (Nat × Bytes)) : Spec.canonical l = canon l := rfl

theorem contentList_eq (es : List Obj) : contentList es = Spec.canonical (es.map abs) := by
  induction es with
  | nil => simp [contentList, Spec.canonical]
  | cons e es ih => simp [contentList, Spec.canonical, ih, abs]

mutual
theorem encodeTo_spec : ∀ b : Obj,
    (encodeTo b).2 = tlv b.type (content b) ∧ (encodeTo b).1.type = b.type ∧
      (encodeTo b).1.buf = some (tlv b.type (content b), content b) ∧
      (encodeTo b).1.elements.map abs = b.elements.map abs ∧
      (encodeTo b).1.size = (tlv b.type (content b)).length
  | mk t (some (w, v)) s es => by
    simp [encodeTo, tlv, type, content, buf, elements, size]
  | mk t none s es => by
    have h := encodeList_spec es
    simp only [encodeTo, type, content, buf, elements, size, h.1, h.2, tlv]
    simp
theorem encodeList_spec : ∀ es : List Obj,
    (encodeList es).2 = contentList es ∧ (encodeList es).1.map abs = es.map abs
  | [] => by simp [encodeList, contentList]
  | e :: es => by
    have h1 := encodeTo_spec e
    have h2 := encodeList_spec es
    refine ⟨?_, ?_⟩
    · simp only [encodeList, contentList, h1.1, h2.1]
    · simp only [encodeList, List.map_cons, h2.2, List.cons.injEq, and_true]
      have : content (encodeTo e).1 = content e := by
        have hb := h1.2.2.1
        revert hb
        cases (encodeTo e).1 with
        | mk t b s es' => intro hb; simp only [buf] at hb; subst hb; simp [content]
      simp [abs, h1.2.1, this]
end

theorem content_of_buf {b : Obj} {w v : Bytes} (h : b.buf = some (w, v)) : content b = v := by
  cases b with
  | mk t bf s es => simp only [buf] at h; subst h; simp [content]

theorem content_of_none {b : Obj} (h : b.buf = none) : content b = Spec.canonical (b.elements.map abs) := by
  cases b with
  | mk t bf s es => simp only [buf] at h; subst h; simp [content, contentList_eq, elements]

/-- The invariant of a block that was built from elements: no buffer, or the canonical one. -/
def Canon (b : Obj) (t : Nat) (l : List (Nat × Bytes)) : Prop :=
  b.type = t ∧ b.elements.map abs = l ∧
    (b.buf = none ∨ b.buf = some (tlv t (Spec.canonical l), Spec.canonical l))

theorem tlv_ne_nil (t : Nat) (v : Bytes) : tlv t v ≠ [] := by
  intro h
  have hl := congrArg List.length h
  simp only [tlv, List.length_append, List.length_nil, writeVarNumber_length] at hl
  have : 0 < sizeOfVarNumber t := by unfold sizeOfVarNumber; (repeat' split) <;> omega
  omega

theorem Canon.content {b : Obj} {t : Nat} {l : List (Nat × Bytes)} (h : Canon b t l) :
    content b = Spec.canonical l := by
  rcases h.2.2 with h1 | h1
  · rw [content_of_none h1, h.2.1]
  · exact content_of_buf h1

theorem Canon.encode {b : Obj} {t : Nat} {l : List (Nat × Bytes)} (h : Canon b t l) :
    Canon b.encode t l ∧ b.encode.buf = some (tlv t (Spec.canonical l), Spec.canonical l) := by
  unfold Obj.encode hasWire
  rcases h.2.2 with hb | hb <;> rw [hb]
  · simp only [Bool.false_eq_true, if_false]
    obtain ⟨_, h2, h3, h4, _⟩ := encodeTo_spec b
    rw [h.content, h.1] at h3
    exact ⟨⟨by rw [h2, h.1], by rw [h4, h.2.1], Or.inr h3⟩, h3⟩
  · simp only [tlv_ne_nil, ne_eq, not_false_eq_true, decide_true, if_true]
    exact ⟨h, hb⟩

theorem valueBytes_of_none {b : Obj} (h : b.buf = none) : b.valueBytes = [] := by
  cases b with
  | mk t bf s es => simp only [buf] at h; subst h; rfl

theorem canonical_nil_iff (l : List (Nat × Bytes)) : Spec.canonical l = [] ↔ l = [] := by
  cases l with
  | nil => simp [Spec.canonical]
  | cons p l => simp [Spec.canonical, tlv_ne_nil]

theorem Canon.parse {b : Obj} {t : Nat} {l : List (Nat × Bytes)} (h : Canon b t l) :
    b.parse = (.ok, b) := by
  obtain ⟨rfl, h2, h3⟩ := h
  cases b with
  | mk t' bf s es =>
    simp only [elements] at h2
    unfold Obj.parse
    rw [if_pos]
    rcases h3 with h3 | h3
    · simp only [buf] at h3; subst h3; right; rfl
    · simp only [buf, type] at h3; subst h3
      by_cases he : es = []
      · subst he; simp at h2; subst h2; right; rfl
      · left; rw [elements]; simpa using he

theorem Canon.of_none {b : Obj} (h : b.buf = none) : Canon b b.type (b.elements.map abs) :=
  ⟨rfl, rfl, Or.inl h⟩

@[simp] theorem elements_mk (t b s es) : (mk t b s es).elements = es := rfl
@[simp] theorem type_mk (t b s es) : (mk t b s es).type = t := rfl
@[simp] theorem buf_mk (t b s es) : (mk t b s es).buf = b := rfl

/-- A mutator acts on the elements as on the list, keeps the type and drops the buffer. -/
theorem step_mutator (b : Obj) (op : Op) (hm : op.mutates = true) :
    (∀ b', b.step op = some b' → b'.type = b.type ∧ b'.buf = none) ∧
      (b.step op).map (fun b' => b'.elements.map abs) = listStep (b.elements.map abs) op := by
  cases b with
  | mk t bf s es =>
    cases op with
    | pushBack e => simp [step, pushBack, resetWire, listStep]
    | insert i e =>
      by_cases h : i ≤ es.length
      · have he : Obj.insert (mk t bf s es) i e =
            some (mk t none s (es.take i ++ [e] ++ es.drop i)) := by
          unfold Obj.insert; rw [if_neg (by rw [elements_mk]; omega)]; rfl
        simp [step, he, listStep, h, List.map_take, List.map_drop]
      · have he : Obj.insert (mk t bf s es) i e = none := by
          unfold Obj.insert; rw [if_pos (by rw [elements_mk]; omega)]
        simp only [step, he, listStep, elements_mk, List.length_map, h, if_false]; simp
    | erase i =>
      by_cases h : i < es.length
      · have he : Obj.erase (mk t bf s es) i =
            some (mk t none s (es.take i ++ es.drop (i + 1))) := by
          unfold Obj.erase; rw [if_neg (by rw [elements_mk]; omega)]; rfl
        simp [step, he, listStep, h, List.eraseIdx_eq_take_drop_succ, List.map_take, List.map_drop]
      · have he : Obj.erase (mk t bf s es) i = none := by
          unfold Obj.erase; rw [if_pos (by rw [elements_mk]; omega)]
        simp only [step, he, listStep, elements_mk, List.length_map, h, if_false]; simp
    | eraseRange i j =>
      by_cases h : i ≤ j ∧ j ≤ es.length
      · have h1 : ¬ (i > j ∨ j > (mk t bf s es).elements.length) := by
          rw [elements_mk]; omega
        have he : eraseRange (mk t bf s es) i j =
            some (mk t none s (es.take i ++ es.drop j)) := by
          unfold Obj.eraseRange; rw [if_neg h1]; rfl
        simp [step, he, listStep, h, List.map_take, List.map_drop]
      · have h1 : i > j ∨ j > (mk t bf s es).elements.length := by rw [elements_mk]; omega
        have he : eraseRange (mk t bf s es) i j = none := by
          unfold Obj.eraseRange; rw [if_pos h1]
        simp only [step, he, listStep, elements_mk, List.length_map, h, if_false]; simp
    | remove t' =>
      simp only [step, Obj.remove, resetWire, listStep, elements_mk]
      refine ⟨?_, ?_⟩
      · intro b' h; simp at h; subst h; simp
      · simp only [Option.map_some, Option.some.injEq, elements_mk]
        rw [List.filter_map]; rfl
    | encode => simp [Op.mutates] at hm
    | parse => simp [Op.mutates] at hm

theorem step_canon {b : Obj} {t : Nat} {l : List (Nat × Bytes)} (h : Canon b t l) (op : Op) :
    (∀ b', b.step op = some b' → ∃ l', listStep l op = some l' ∧ Canon b' t l') ∧
      (b.step op = none → listStep l op = none) := by
  by_cases hm : op.mutates = true
  · obtain ⟨h1, h2⟩ := step_mutator b op hm
    rw [h.2.1] at h2
    refine ⟨?_, ?_⟩
    · intro b' hb'
      obtain ⟨ht, hbuf⟩ := h1 b' hb'
      rw [hb'] at h2
      exact ⟨_, h2.symm, by rw [ht, h.1], rfl, Or.inl hbuf⟩
    · intro hn; rw [hn] at h2; exact h2.symm
  · cases op with
    | encode =>
      refine ⟨?_, by simp [step]⟩
      intro b' hb'; simp [step] at hb'; subst hb'
      exact ⟨l, rfl, h.encode.1⟩
    | parse =>
      refine ⟨?_, by simp [step]⟩
      intro b' hb'; simp [step] at hb'; subst hb'
      exact ⟨l, rfl, by rw [h.parse]; exact h⟩
    | _ => simp [Op.mutates] at hm

theorem run_canon {b : Obj} {t : Nat} {l : List (Nat × Bytes)} (h : Canon b t l) (ops : List Op) :
    (∀ b', b.run ops = some b' → ∃ l', listRun l ops = some l' ∧ Canon b' t l') ∧
      (b.run ops = none → listRun l ops = none) := by
  induction ops generalizing b l with
  | nil => simp only [run, listRun]; exact ⟨by rintro b' ⟨⟩; exact ⟨l, rfl, h⟩, by simp⟩
  | cons op ops ih =>
    obtain ⟨h1, h2⟩ := step_canon h op
    simp only [run, listRun]
    cases hs : b.step op with
    | none => simp [h2 hs]
    | some b1 =>
      obtain ⟨l1, hl1, hc1⟩ := h1 b1 hs
      rw [hl1]
      exact ih hc1

/-- The first element with the type asked for. -/
theorem find_abs (b : Obj) (t : Nat) :
    (b.find t).map abs = (b.elements.map abs).find? (fun p => p.1 = t) := by
  unfold find
  induction b.elements with
  | nil => rfl
  | cons e es ih =>
    simp only [List.map_cons, List.find?_cons]
    rw [show (abs e).1 = e.type from rfl]
    split <;> simp_all

theorem estimate_mono_sizeOf {a b : Nat} (h : a ≤ b) : sizeOfVarNumber a ≤ sizeOfVarNumber b := by
  unfold sizeOfVarNumber; (repeat' split) <;> omega

mutual
/-- Blocks whose recorded size is that of their content, recursively. -/
def SizeOk : Obj → Prop
  | mk t (some (_, v)) s _ => (tlv t v).length ≤ s
  | mk _ none _ es => SizeOkList es
def SizeOkList : List Obj → Prop
  | [] => True
  | e :: es => SizeOk e ∧ SizeOkList es
end

mutual
theorem estimate_ge : ∀ b : Obj, SizeOk b → (encodeTo b).2.length ≤ estimate b
  | mk t (some (w, v)) s es, h => by simpa [encodeTo, estimate, SizeOk, tlv] using h
  | mk t none s es, h => by
    have := estimateList_ge es (by simpa [SizeOk] using h)
    simp only [encodeTo, estimate, List.length_append, writeVarNumber_length]
    have := estimate_mono_sizeOf this
    omega
theorem estimateList_ge : ∀ es : List Obj, SizeOkList es →
    (encodeList es).2.length ≤ estimateList es
  | [], _ => by simp [encodeList]
  | e :: es, h => by
    simp only [SizeOkList] at h
    have h1 := estimate_ge e h.1
    have h2 := estimateList_ge es h.2
    simp only [encodeList, estimateList, List.length_append]
    omega
end

end Obj
end Ndn.Block
