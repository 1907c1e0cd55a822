import Verif.Tlv.Lemmas
import Verif.Block.Spec
namespace Ndn.Block
open Tlv Tlv.Spec Spec

theorem VarForm_length_pos {bs : Bytes} {n : Nat} (h : VarForm bs n) : 0 < bs.length := by
  cases h <;> simp

theorem Spec.TlvForm.length_ge {w v : Bytes} {t : Nat} (h : TlvForm w t v) : 2 ≤ w.length := by
  obtain ⟨a, b, rfl, ha, _, _, hb⟩ := h
  have := VarForm_length_pos ha
  have := VarForm_length_pos hb
  simp; omega

theorem Spec.TlvForm.ne_nil {w v : Bytes} {t : Nat} (h : TlvForm w t v) : w ≠ [] := by
  intro hw
  have := h.length_ge
  simp [hw] at this

/-- Result of the header reads shared by all decoders. -/
theorem header_iff {bs pos : Bytes} {type length : Nat} :
    (∃ r1, readType bs = some (type, r1) ∧ readVarNumber r1 = some (length, pos)) ↔
      ∃ t l, bs = t ++ l ++ pos ∧ VarForm t type ∧ 1 ≤ type ∧ type ≤ 2 ^ 32 - 1 ∧
        VarForm l length := by
  constructor
  · rintro ⟨r1, h1, h2⟩
    obtain ⟨t, rfl, ht, h0, h32⟩ := readType_iff.mp h1
    obtain ⟨l, rfl, hl⟩ := readVarNumber_iff.mp h2
    exact ⟨t, l, by simp, ht, h0, by omega, hl⟩
  · rintro ⟨t, l, rfl, ht, h0, h32, hl⟩
    refine ⟨l ++ pos, readType_iff.mpr ⟨t, by simp, ht, h0, by omega⟩, ?_⟩
    exact readVarNumber_iff.mpr ⟨l, rfl, hl⟩

theorem fromBuffer_iff {bs rest : Bytes} {r : Raw} :
    fromBuffer bs = some (r, rest) ↔ bs = r.wire ++ rest ∧ TlvForm r.wire r.type r.value := by
  constructor
  · intro h
    unfold fromBuffer at h
    split at h
    · simp at h
    rename_i type r1 h1
    split at h
    · simp at h
    rename_i length pos h2
    split at h
    · simp at h
    rename_i hlen
    simp only [Option.some.injEq, Prod.mk.injEq] at h
    obtain ⟨rfl, rfl⟩ := h
    obtain ⟨t, l, rfl, ht, h0, h32, hl⟩ := header_iff.mp ⟨r1, h1, h2⟩
    have hw : (t ++ l ++ pos).take ((t ++ l ++ pos).length - pos.length + length) =
        t ++ l ++ pos.take length := by
      rw [show (t ++ l ++ pos).length - pos.length = (t ++ l).length by simp; omega]
      rw [List.take_length_add_append]
    refine ⟨?_, t, l, hw, ht, h0, h32, ?_⟩
    · simp only [hw]
      rw [List.append_assoc (t ++ l), List.take_append_drop]
    · simp only [List.length_take]
      rw [Nat.min_eq_left (by omega)]; exact hl
  · rintro ⟨rfl, t, l, hw, ht, h0, h32, hl⟩
    obtain ⟨r1, h1, h2⟩ := header_iff (pos := r.value ++ rest) |>.mpr ⟨t, l, rfl, ht, h0, h32, hl⟩
    rw [hw]
    have he : t ++ l ++ r.value ++ rest = t ++ l ++ (r.value ++ rest) := by simp
    rw [he]
    unfold fromBuffer
    rw [h1]
    simp only [h2]
    rw [if_neg (by simp)]
    congr 2
    · rw [show (t ++ l ++ (r.value ++ rest)).length - (r.value ++ rest).length = (t ++ l).length by
        simp; omega]
      rw [List.take_length_add_append]
      cases r
      simp_all
    · simp

theorem fromBuffer_none_iff {bs : Bytes} :
    fromBuffer bs = none ↔ ∀ w rest t v, bs = w ++ rest → ¬ TlvForm w t v := by
  constructor
  · intro h w rest t v hbs hf
    have := (fromBuffer_iff (r := ⟨t, w, v⟩)).mpr ⟨hbs, hf⟩
    rw [h] at this; simp at this
  · intro h
    cases hr : fromBuffer bs with
    | none => rfl
    | some p =>
      obtain ⟨h1, h2⟩ := fromBuffer_iff.mp (show fromBuffer bs = some (p.1, p.2) from hr)
      exact absurd h2 (h _ _ _ _ h1)

theorem fromRange_iff {bs : Bytes} {r : Raw} :
    fromRange bs true = some r ↔ r.wire = bs ∧ TlvForm bs r.type r.value := by
  constructor
  · intro h
    unfold fromRange at h
    split at h
    · simp at h
    rename_i type r1 h1
    split at h
    · simp at h
    rename_i length value h2
    split at h
    · simp at h
    rename_i hlen
    simp only [Option.some.injEq] at h
    subst h
    obtain ⟨t, l, rfl, ht, h0, h32, hl⟩ := header_iff.mp ⟨r1, h1, h2⟩
    simp at hlen
    exact ⟨rfl, t, l, rfl, ht, h0, h32, hlen ▸ hl⟩
  · rintro ⟨hw, t, l, rfl, ht, h0, h32, hl⟩
    obtain ⟨r1, h1, h2⟩ := header_iff.mpr ⟨t, l, rfl, ht, h0, h32, hl⟩
    unfold fromRange
    rw [h1]
    simp only [h2]
    cases r; simp_all

/-! ### Canonical forms -/

theorem tlv_form {t : Nat} {v : Bytes} (h0 : 1 ≤ t) (h1 : t ≤ 2 ^ 32 - 1) (hv : v.length < 2 ^ 64) :
    TlvForm (tlv t v) t v :=
  ⟨writeVarNumber t, writeVarNumber v.length, rfl, writeVarNumber_form (by omega), h0, h1,
    writeVarNumber_form hv⟩

theorem fromBuffer_tlv {t : Nat} {v : Bytes} (rest : Bytes)
    (h0 : 1 ≤ t) (h1 : t ≤ 2 ^ 32 - 1) (hv : v.length < 2 ^ 64) :
    fromBuffer (tlv t v ++ rest) = some (⟨t, tlv t v, v⟩, rest) :=
  fromBuffer_iff.mpr ⟨rfl, tlv_form h0 h1 hv⟩

/-! ### parse -/

theorem fromBuffer_step {b : UInt8} {bs : Bytes} (fuel : Nat) (acc : List Raw) :
    parseLoop (fuel + 1) acc (b :: bs) =
      match fromBuffer (b :: bs) with
      | some (r, rest) => parseLoop fuel (acc ++ [r]) rest
      | none => (.threw, (parseLoop (fuel + 1) acc (b :: bs)).2) := by
  unfold fromBuffer
  rw [parseLoop]
  cases h1 : readType (b :: bs) with
  | none => simp
  | some p1 =>
    obtain ⟨type, r1⟩ := p1
    simp only
    cases h2 : readVarNumber r1 with
    | none => simp
    | some p2 =>
      obtain ⟨length, pos⟩ := p2
      simp only
      split <;> simp

theorem fromBuffer_rest_length {bs rest : Bytes} {r : Raw} (h : fromBuffer bs = some (r, rest)) :
    rest.length + 2 ≤ bs.length := by
  obtain ⟨rfl, hf⟩ := fromBuffer_iff.mp h
  have := hf.length_ge
  simp; omega

theorem parseLoop_ok_iff {fuel : Nat} {acc es : List Raw} {bs : Bytes} (hf : bs.length ≤ fuel) :
    parseLoop fuel acc bs = (.ok, es) ↔ ∃ new, es = acc ++ new ∧ ReadsAs bs new := by
  induction fuel generalizing acc bs with
  | zero =>
    have : bs = [] := List.length_eq_zero_iff.mp (by omega)
    subst this
    simp only [parseLoop, Prod.mk.injEq, true_and]
    constructor
    · rintro rfl; exact ⟨[], by simp, by simp [ReadsAs]⟩
    · rintro ⟨new, rfl, h1, h2⟩
      cases new with
      | nil => simp
      | cons e new =>
        have := (h2 e (by simp)).ne_nil
        simp at h1
        exact absurd h1.1 this
  | succ fuel ih =>
    cases bs with
    | nil =>
      simp only [parseLoop, Prod.mk.injEq, true_and]
      constructor
      · rintro rfl; exact ⟨[], by simp, by simp [ReadsAs]⟩
      · rintro ⟨new, rfl, h1, h2⟩
        cases new with
        | nil => simp
        | cons e new =>
          have := (h2 e (by simp)).ne_nil
          simp at h1
          exact absurd h1.1 this
    | cons b bs =>
      rw [fromBuffer_step]
      cases hr : fromBuffer (b :: bs) with
      | none =>
        simp only [Prod.mk.injEq, reduceCtorEq, false_and, false_iff, not_exists, not_and]
        rintro new rfl ⟨h1, h2⟩
        cases new with
        | nil => simp at h1
        | cons e new =>
          simp only [List.map_cons, List.flatten_cons] at h1
          exact fromBuffer_none_iff.mp hr e.wire _ _ _ h1 (h2 e (by simp))
      | some p =>
        obtain ⟨r, rest⟩ := p
        have hrl := fromBuffer_rest_length hr
        simp only
        rw [ih (by simp at hf hrl; omega)]
        obtain ⟨hbs, hform⟩ := fromBuffer_iff.mp hr
        constructor
        · rintro ⟨new, rfl, h1, h2⟩
          refine ⟨r :: new, by simp, ?_, ?_⟩
          · simp [hbs, h1]
          · intro e he
            rcases List.mem_cons.mp he with rfl | he
            · exact hform
            · exact h2 e he
        · rintro ⟨new, rfl, h1, h2⟩
          cases new with
          | nil => simp at h1
          | cons e new =>
            simp only [List.map_cons, List.flatten_cons] at h1
            have he := fromBuffer_iff.mpr ⟨h1, h2 e (by simp)⟩
            rw [hr] at he
            simp only [Option.some.injEq, Prod.mk.injEq] at he
            obtain ⟨rfl, rfl⟩ := he
            exact ⟨new, by simp, rfl, fun e he => h2 e (by simp [he])⟩

theorem parseElements_iff {v : Bytes} {es : List Raw} :
    parseElements v = some es ↔ ReadsAs v es := by
  unfold parseElements parse
  split
  · rename_i x es' heq
    split at heq
    · rename_i h
      simp at h
      subst h
      simp only [Prod.mk.injEq, true_and] at heq
      subst heq
      constructor
      · intro h; simp at h; subst h; simp [ReadsAs]
      · rintro ⟨h1, h2⟩
        cases es with
        | nil => rfl
        | cons e es =>
          have := (h2 e (by simp)).ne_nil
          simp at h1
          exact absurd h1.1 this
    · have := (parseLoop_ok_iff (acc := []) (Nat.le_refl v.length)).mp heq
      obtain ⟨new, rfl, hn⟩ := this
      simp only [Option.some.injEq]
      constructor
      · rintro rfl; exact hn
      · intro h
        have := (parseLoop_ok_iff (acc := []) (es := es) (Nat.le_refl v.length)).mpr ⟨es, by simp, h⟩
        rw [heq] at this; simpa using this
  · rename_i x es' heq
    split at heq
    · simp at heq
    · simp only [reduceCtorEq, false_iff]
      intro h
      have := (parseLoop_ok_iff (acc := []) (es := es) (Nat.le_refl v.length)).mpr ⟨es, by simp, h⟩
      rw [heq] at this; simp at this

theorem Spec.ReadsAs.nil : ReadsAs [] [] := by simp [ReadsAs]

theorem Spec.ReadsAs.cons {r : Raw} {bs : Bytes} {es : List Raw} (hr : TlvForm r.wire r.type r.value)
    (h : ReadsAs bs es) : ReadsAs (r.wire ++ bs) (r :: es) := by
  refine ⟨by simp [h.1], ?_⟩
  intro e he
  rcases List.mem_cons.mp he with rfl | he
  · exact hr
  · exact h.2 e he

theorem Spec.ReadsAs.append {as bs : Bytes} {xs ys : List Raw} (h1 : ReadsAs as xs) (h2 : ReadsAs bs ys) :
    ReadsAs (as ++ bs) (xs ++ ys) := by
  refine ⟨by simp [h1.1, h2.1], ?_⟩
  intro e he
  rcases List.mem_append.mp he with he | he
  · exact h1.2 e he
  · exact h2.2 e he

/-- Good elements at the front are added one by one. -/
theorem parseLoop_append {pre bad : Bytes} {es : List Raw} (h : ReadsAs pre es) (fuel : Nat)
    (acc : List Raw) (hf : (pre ++ bad).length ≤ fuel) :
    ∃ fuel', bad.length ≤ fuel' ∧ parseLoop fuel acc (pre ++ bad) = parseLoop fuel' (acc ++ es) bad := by
  induction es generalizing pre fuel acc with
  | nil =>
    have : pre = [] := by simpa using h.1
    subst this
    exact ⟨fuel, by simpa using hf, by simp⟩
  | cons e es ih =>
    have he := h.2 e (by simp)
    have hpre : pre = e.wire ++ (es.map Raw.wire).flatten := by simpa using h.1
    have hfb : fromBuffer (pre ++ bad) = some (e, (es.map Raw.wire).flatten ++ bad) :=
      fromBuffer_iff.mpr ⟨by rw [hpre]; simp, he⟩
    have hl := fromBuffer_rest_length hfb
    have hr : ReadsAs (es.map Raw.wire).flatten es := ⟨rfl, fun x hx => h.2 x (by simp [hx])⟩
    cases fuel with
    | zero => omega
    | succ fuel =>
      obtain ⟨f, h1, h2⟩ := ih hr fuel (acc ++ [e]) (by omega)
      refine ⟨f, h1, ?_⟩
      cases hb : pre ++ bad with
      | nil => rw [hb] at hl; simp at hl
      | cons b bs =>
        rw [fromBuffer_step, ← hb, hfb]
        simp only [h2]; simp

/-- Elements written in canonical form. -/
def canon (l : List (Nat × Bytes)) : Bytes := (l.map (fun p => tlv p.1 p.2)).flatten

/-- The decoded element of a canonical TLV. -/
def mkRaw (p : Nat × Bytes) : Raw := ⟨p.1, tlv p.1 p.2, p.2⟩

def ElemWF (p : Nat × Bytes) : Prop := 1 ≤ p.1 ∧ p.1 ≤ 2 ^ 32 - 1 ∧ p.2.length < 2 ^ 64

instance (p : Nat × Bytes) : Decidable (ElemWF p) := by unfold ElemWF; infer_instance

theorem readsAs_canon {l : List (Nat × Bytes)} (h : ∀ p ∈ l, ElemWF p) :
    ReadsAs (canon l) (l.map mkRaw) := by
  induction l with
  | nil => simp [canon, ReadsAs]
  | cons p l ih =>
    have hp := h p (by simp)
    have := ReadsAs.cons (r := mkRaw p) (tlv_form hp.1 hp.2.1 hp.2.2) (ih fun q hq => h q (by simp [hq]))
    simpa [canon, mkRaw] using this

theorem parseElements_canon {l : List (Nat × Bytes)} (h : ∀ p ∈ l, ElemWF p) :
    parseElements (canon l) = some (l.map mkRaw) :=
  parseElements_iff.mpr (readsAs_canon h)

@[simp] theorem canon_nil : canon [] = [] := rfl
@[simp] theorem canon_cons (p : Nat × Bytes) (l) : canon (p :: l) = tlv p.1 p.2 ++ canon l := rfl
theorem canon_append (l m : List (Nat × Bytes)) : canon (l ++ m) = canon l ++ canon m := by
  simp [canon]

end Ndn.Block
