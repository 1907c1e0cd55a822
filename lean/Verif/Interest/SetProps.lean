import Verif.Interest.SignProps
/-
Property C77: effect of the Interest setters.
-/
namespace Ndn.Interest
open Tlv Block Block.Spec Name Name.Spec Packet Packet.Spec Spec

/-- The effect of the plain setters on the fields; the name and parameter setters are below. -/
inductive PlainEffect (f : IFields) : IOp → IFields → Prop
  | canBePrefix (x : Bool) : PlainEffect f (.setCanBePrefix x) { f with canBePrefix := x }
  | mustBeFresh (x : Bool) : PlainEffect f (.setMustBeFresh x) { f with mustBeFresh := x }
  | hint (l : List (List Comp)) : PlainEffect f (.setForwardingHint l) { f with hint := l }
  | nonce (n : Option Bytes) : PlainEffect f (.setNonce n) { f with nonce := n }
  | lifetime (n : Nat) : PlainEffect f (.setLifetime n) { f with lifetime := n }
  | hopLimit (h : Option UInt8) : PlainEffect f (.setHopLimit h) { f with hopLimit := h }

/-- The plain setters give their field the value, and change no other field. -/
theorem C77_plain (H : Bytes → Bytes) (auto : Bool) (o : IObj) (op : IOp) (f' : IFields)
    (h : PlainEffect o.f op f') : (o.step H auto op).1 = true ∧ (o.step H auto op).2.f = f' := by
  rcases o with ⟨⟨a1, a2, a3, a4, a5, a6, a7, a8⟩, w⟩
  cases h with
  | canBePrefix x => simp only [IObj.step]; split <;> simp_all
  | mustBeFresh x => simp only [IObj.step]; split <;> simp_all
  | hint l => exact ⟨rfl, rfl⟩
  | nonce n => simp only [IObj.step]; split <;> simp_all
  | lifetime n =>
    simp only [IObj.step]
    rw [if_neg (by omega)]
    simp only [Int.toNat_natCast]
    split <;> simp_all
  | hopLimit h => simp only [IObj.step]; split <;> simp_all

/-- A negative lifetime is refused. -/
theorem C77_lifetime_negative (H : Bytes → Bytes) (auto : Bool) (o : IObj) (ms : Int) (h : ms < 0) :
    o.step H auto (.setLifetime ms) = (false, o) := by
  simp only [IObj.step]; rw [if_pos h]

/-- `getNonce` returns the nonce or a drawn one, which then is the nonce; `refreshNonce` changes an
existing nonce to a different one. Neither changes anything else. -/
theorem C77_nonce (H : Bytes → Bytes) (auto : Bool) (o : IObj) (rnd : Bytes) (rnds : List Bytes) :
    ((o.getNonce rnd).1.f = { o.f with nonce := some (o.getNonce rnd).2 } ∧
      (o.getNonce rnd).2 = o.f.nonce.getD rnd) ∧
    ((o.step H auto (.refreshNonce rnds)).1 = true →
      (o.f.nonce = none → (o.step H auto (.refreshNonce rnds)).2 = o) ∧
      (∀ n, o.f.nonce = some n → ∃ m ∈ rnds, m ≠ n ∧
        (o.step H auto (.refreshNonce rnds)).2.f = { o.f with nonce := some m })) := by
  constructor
  · unfold IObj.getNonce
    cases hn : o.f.nonce with
    | none => simp
    | some n =>
      rcases o with ⟨⟨a1, a2, a3, a4, a5, a6, a7, a8⟩, w⟩
      simp only at hn
      simp [hn]
  · intro h
    constructor
    · intro hn; simp only [IObj.step, hn]
    · intro n hn
      simp only [IObj.step, hn] at h ⊢
      cases hf : rnds.find? (fun r => r ≠ n) with
      | none => rw [hf] at h; simp at h
      | some m =>
        exact ⟨m, List.mem_of_find?_eq_some hf, by simpa using List.find?_some hf, rfl⟩

/-- `ps'` is `ps` with the first element of type `t` replaced by (an element equal to) `e`. -/
def Replaced (t : Nat) (e : Raw) (ps ps' : List Raw) : Prop :=
  ∃ a old e' c, ps = a ++ old :: c ∧ (∀ x ∈ a, x.type ≠ t) ∧ old.type = t ∧ ps' = a ++ e' :: c ∧
    e'.type = e.type ∧ e'.value = e.value

theorem replaced_set {t : Nat} {e old : Raw} {ps : List Raw} (h : ps[firstParam t ps]? = some old) :
    (∃ a c, ps = a ++ old :: c ∧ (∀ x ∈ a, x.type ≠ t) ∧ old.type = t ∧ ps.set (firstParam t ps) e = a ++ e :: c) := by
  unfold firstParam at h ⊢
  induction ps with
  | nil => simp at h
  | cons p ps ih =>
    rw [List.findIdx_cons] at h ⊢
    by_cases hp : p.type = t
    · simp only [hp, decide_true, cond_true, List.getElem?_cons_zero, Option.some.injEq] at h
      subst h
      refine ⟨[], ps, rfl, by simp, hp, ?_⟩
      simp [hp]
    · simp only [hp, decide_false, cond_false, List.getElem?_cons_succ] at h
      obtain ⟨a, c, h1, h2, h3, h4⟩ := ih h
      refine ⟨p :: a, c, by rw [h1]; rfl, ?_, h3, ?_⟩
      · intro x hx
        simp only [List.mem_cons] at hx
        rcases hx with rfl | hx
        · exact hp
        · exact h2 x hx
      · simp only [hp, decide_false, cond_false, List.set_cons_succ, h4, List.cons_append]

theorem firstParam_none {t : Nat} {ps : List Raw} (h : ps[firstParam t ps]? = none) : ∀ x ∈ ps, x.type ≠ t := by
  intro x hx hc
  rw [List.getElem?_eq_none_iff] at h
  exact firstParam_lt.mpr ⟨x, hx, hc⟩ h

/-- `setApplicationParameters` replaces the first parameter, or adds it; others stay. -/
theorem C77_params (H : Bytes → Bytes) (auto : Bool) (o : IObj) (v : Bytes) (b : Raw) :
    (o.step H auto (.setParams v)).2.f.params = binaryBlock 36 v :: o.f.params.tail ∧
    (b.type = 36 → (o.step H auto (.setParamsBlock b)).2.f.params = b :: o.f.params.tail) ∧
    (b.type ≠ 36 → (o.step H auto (.setParamsBlock b)).2.f.params = binaryBlock 36 b.wire :: o.f.params.tail) ∧
    (o.step H auto .unsetParams).2.f.params = [] := by
  refine ⟨?_, ?_, ?_, rfl⟩
  · simp only [IObj.step, IObj.setParamsInternal]
    cases o.f.params <;> rfl
  · intro hb
    simp only [IObj.step, IObj.setParamsInternal, if_pos hb]
    cases o.f.params <;> rfl
  · intro hb
    simp only [IObj.step, IObj.setParamsInternal, if_neg hb]
    cases o.f.params <;> rfl

/-- `setSignatureInfo`: the SignatureInfo in the parameters afterwards is the encoding of the argument.
It replaces the existing one; otherwise it is added, before the first signature value if there is one
and else at the end. Absent parameters first become an empty ApplicationParameters. -/
theorem C77_sigInfo (H : Bytes → Bytes) (o o' : IObj) (s : SObj) (h : o.setSigInfo H s = (true, o')) :
    ∃ s' e ps, s.wireEncode 44 = some (s', e) ∧
      ps = (if o.f.params = [] then [binaryBlock 36 []] else o.f.params) ∧
      (Replaced 44 e ps o'.f.params ∨
        ((∀ x ∈ ps, x.type ≠ 44) ∧ ∃ a c, ps = a ++ c ∧ o'.f.params = a ++ e :: c ∧
          (∀ x ∈ a, x.type ≠ 46) ∧ (∀ x ∈ c.head?, x.type = 46))) ∧
      o'.f = { o.f with params := o'.f.params, name := o'.f.name } := by
  unfold IObj.setSigInfo at h
  simp only at h
  cases he : s.wireEncode 44 with
  | none => rw [he] at h; simp at h
  | some r =>
    obtain ⟨s', e⟩ := r
    refine ⟨s', e, _, rfl, rfl, ?_⟩
    generalize (if o.f.params = [] then [binaryBlock 36 []] else o.f.params) = ps at h ⊢
    rw [he] at h
    simp only at h
    cases hg : ps[firstParam 44 ps]? with
    | some old =>
      rw [hg] at h
      simp only at h
      obtain ⟨a, c, k1, k2, k3, k4⟩ := replaced_set (e := e) hg
      by_cases hq : old.equals e = true
      · rw [if_pos hq] at h
        simp only [Prod.mk.injEq, true_and] at h
        subst h
        unfold Raw.equals at hq
        simp only [Bool.and_eq_true, beq_iff_eq] at hq
        exact ⟨Or.inl ⟨a, old, old, c, k1, k2, k3, k1, hq.1, hq.2⟩, rfl⟩
      · rw [if_neg hq] at h
        simp only [Prod.mk.injEq, true_and] at h
        subst h
        exact ⟨Or.inl ⟨a, old, e, c, k1, k2, k3, k4, rfl, rfl⟩, rfl⟩
    | none =>
      rw [hg] at h
      simp only [Prod.mk.injEq, true_and] at h
      subst h
      refine ⟨Or.inr ⟨firstParam_none hg, ps.take (firstParam 46 ps), ps.drop (firstParam 46 ps),
        (List.take_append_drop _ _).symm, rfl, ?_, ?_⟩, rfl⟩
      · intro x hx
        obtain ⟨i, hi, hxi⟩ := List.mem_iff_getElem.mp hx
        simp only [List.length_take] at hi
        rw [List.getElem_take] at hxi
        have := List.not_of_lt_findIdx (p := fun b : Raw => decide (b.type = 46)) (xs := ps) (i := i)
          (by unfold firstParam at hi; omega)
        simp only [hxi, Bool.not_eq_true, decide_eq_false_iff_not] at this
        exact this
      · intro x hx
        rw [List.head?_drop] at hx
        have hlt : firstParam 46 ps < ps.length := (List.getElem?_eq_some_iff.mp hx).1
        have := List.findIdx_getElem (p := fun b : Raw => decide (b.type = 46)) (xs := ps) (w := hlt)
        simp only [decide_eq_true_eq] at this
        have h2 := (List.getElem?_eq_some_iff.mp hx).2
        rw [← h2]; exact this

/-- `setSignatureValue`: requires a SignatureInfo; the signature value replaces the existing one, and
otherwise is added right after the first SignatureInfo. -/
theorem C77_sigValue (H : Bytes → Bytes) (o o' : IObj) (v : Bytes) :
    (∀ x ∈ o.f.params, x.type ≠ 44) ∧ o.setSigValue H v = (false, o) ∨
    (∃ x ∈ o.f.params, x.type = 44) ∧ (o.setSigValue H v).1 = true ∧
      (o.setSigValue H v = (true, o') →
        (Replaced 46 (binaryBlock 46 v) o.f.params o'.f.params ∨
          ((∀ x ∈ o.f.params, x.type ≠ 46) ∧ ∃ a i c, o.f.params = a ++ i :: c ∧ i.type = 44 ∧
            (∀ x ∈ a, x.type ≠ 44) ∧ o'.f.params = a ++ i :: binaryBlock 46 v :: c)) ∧
        o'.f = { o.f with params := o'.f.params, name := o'.f.name }) := by
  unfold IObj.setSigValue
  simp only
  by_cases hi : firstParam 44 o.f.params ≥ o.f.params.length
  · left
    rw [if_pos hi]
    refine ⟨?_, rfl⟩
    intro x hx hc
    exact firstParam_lt.mpr ⟨x, hx, hc⟩ hi
  · right
    refine ⟨firstParam_lt.mp hi, ?_⟩
    rw [if_neg hi]
    cases hg : o.f.params[firstParam 46 o.f.params]? with
    | some old =>
      obtain ⟨a, c, k1, k2, k3, k4⟩ := replaced_set (e := binaryBlock 46 v) hg
      simp only
      by_cases hq : old.equals (binaryBlock 46 v) = true
      · rw [if_pos hq]
        refine ⟨rfl, ?_⟩
        intro h
        simp only [Prod.mk.injEq, true_and] at h
        subst h
        unfold Raw.equals at hq
        simp only [Bool.and_eq_true, beq_iff_eq] at hq
        exact ⟨Or.inl ⟨a, old, old, c, k1, k2, k3, k1, hq.1, hq.2⟩, rfl⟩
      · rw [if_neg hq]
        refine ⟨rfl, ?_⟩
        intro h
        simp only [Prod.mk.injEq, true_and] at h
        subst h
        exact ⟨Or.inl ⟨a, old, _, c, k1, k2, k3, k4, rfl, rfl⟩, rfl⟩
    | none =>
      refine ⟨rfl, ?_⟩
      intro h
      simp only [Prod.mk.injEq, true_and] at h
      subst h
      have hlt : firstParam 44 o.f.params < o.f.params.length := by omega
      obtain ⟨i, hget⟩ : ∃ i, o.f.params[firstParam 44 o.f.params]? = some i := ⟨_, List.getElem?_eq_getElem hlt⟩
      obtain ⟨a, c, k1, k2, k3, _⟩ := replaced_set (t := 44) (e := binaryBlock 44 []) hget
      refine ⟨Or.inr ⟨firstParam_none hg, a, i, c, k1, k3, k2, ?_⟩, rfl⟩
      have hlen : firstParam 44 o.f.params = a.length := by
        unfold firstParam
        rw [k1, List.findIdx_append, List.findIdx_eq_length_of_false (by intro e he; simpa using k2 e he)]
        simp [List.findIdx_cons, k3]
      simp only
      rw [hlen]
      unfold insertAt
      rw [k1]
      have : a ++ i :: c = (a ++ [i]) ++ c := by simp
      rw [this, List.take_append_of_le_length (by simp), List.take_of_length_le (by simp),
        List.drop_append_of_le_length (by simp), List.drop_eq_nil_of_le (by simp)]
      simp

/-- Two Interests match when name, CanBePrefix and MustBeFresh are equal. -/
theorem C77_matchesInterest (a b : IFields) :
    matchesInterest a b = true ↔ a.name = b.name ∧ a.canBePrefix = b.canBePrefix ∧ a.mustBeFresh = b.mustBeFresh := by
  unfold matchesInterest
  simp [and_assoc]

/-- Both branches of the signature setters occur. -/
example : (∃ o, (⟨trailing, none⟩ : IObj).setSigInfo zeroHash ⟨none, ⟨some 0, none, []⟩⟩ = (true, o)) ∧
    (∃ o, IObj.init.setSigInfo zeroHash ⟨none, ⟨some 0, none, []⟩⟩ = (true, o)) ∧
    (∃ o, (⟨trailing, none⟩ : IObj).setSigValue zeroHash [1] = (true, o)) ∧
    PlainEffect trailing (.setLifetime (5 : Nat)) { trailing with lifetime := 5 } :=
  ⟨⟨_, rfl⟩, ⟨_, rfl⟩, ⟨_, rfl⟩, .lifetime 5⟩

/-- C77: the lifetime read from an Interest is the one it carries, or the longest duration there is if it does not fit. -/
theorem C77_lifetime (f : IFields) :
    (f.lifetime < 2 ^ 63 → f.getLifetime = f.lifetime) ∧ (2 ^ 63 ≤ f.lifetime → f.getLifetime = 2 ^ 63 - 1) := by
  unfold IFields.getLifetime
  constructor <;> intro h <;> split <;> omega

end Ndn.Interest
