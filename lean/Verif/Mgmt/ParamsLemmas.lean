import Verif.Mgmt.ParamsSpec
import Verif.Packet.Lemmas
import Verif.Packet.DataLemmas
namespace Ndn.Mgmt
open Tlv Tlv.Spec Block Block.Spec Name Packet Packet.Spec

/-- The last element of a type, read by `rd`. -/
def scan {α : Type} (t : Nat) (rd : Raw → Option α) : Option α → List Raw → Option (Option α)
  | acc, [] => some acc
  | acc, e :: es => if e.type = t then (rd e).bind fun a => scan t rd (some a) es else scan t rd acc es

theorem scan_iff_aux {α : Type} {t : Nat} {rd : Raw → Option α} {R : Raw → α → Prop} (hR : ∀ e a, e.type = t → (rd e = some a ↔ R e a))
    (es : List Raw) : ∀ (acc o : Option α), scan t rd acc es = some o ↔
      (∀ e ∈ es, e.type = t → ∃ a, R e a) ∧
      ((o = acc ∧ ∀ e ∈ es, e.type ≠ t) ∨
       ∃ a pre e post, o = some a ∧ es = pre ++ e :: post ∧ e.type = t ∧ R e a ∧ ∀ x ∈ post, x.type ≠ t) := by
  induction es with
  | nil =>
    intro acc o
    simp only [scan]
    constructor
    · rintro h
      cases h
      exact ⟨(fun _ h => by cases h), Or.inl ⟨rfl, (fun _ h => by cases h)⟩⟩
    · rintro ⟨_, ⟨rfl, _⟩ | ⟨a, pre, e, post, _, h, _⟩⟩
      · rfl
      · simp at h
  | cons e es ih =>
    intro acc o
    unfold scan
    by_cases ht : e.type = t
    · rw [if_pos ht]
      cases hr : rd e with
      | none =>
        simp only [Option.bind_none]
        constructor
        · intro h; cases h
        · rintro ⟨h, _⟩
          obtain ⟨a, ha⟩ := h e (by simp) ht
          rw [(hR e a ht).2 ha] at hr; cases hr
      | some a =>
        simp only [Option.bind_some]
        rw [ih]
        constructor
        · rintro ⟨h1, h2⟩
          refine ⟨?_, ?_⟩
          · intro x hx hxt
            rcases List.mem_cons.1 hx with rfl | hx
            · exact ⟨a, (hR x a ht).1 hr⟩
            · exact h1 x hx hxt
          · rcases h2 with ⟨rfl, h2⟩ | ⟨b, pre, x, post, h⟩
            · exact Or.inr ⟨a, [], e, es, rfl, rfl, ht, (hR e a ht).1 hr, h2⟩
            · exact Or.inr ⟨b, e :: pre, x, post, h.1, by rw [h.2.1]; rfl, h.2.2⟩
        · rintro ⟨h1, h2⟩
          refine ⟨fun x hx => h1 x (List.mem_cons_of_mem _ hx), ?_⟩
          rcases h2 with ⟨_, h2⟩ | ⟨b, pre, x, post, hb, h, hx⟩
          · exact absurd ht (h2 e (by simp))
          · cases pre with
            | nil =>
              simp only [List.nil_append, List.cons.injEq] at h
              obtain ⟨rfl, rfl⟩ := h
              refine Or.inl ⟨?_, hx.2.2⟩
              have h3 := (hR e b ht).2 hx.2.1
              rw [hr] at h3
              rw [hb, h3]
            | cons y pre =>
              simp only [List.cons_append, List.cons.injEq] at h
              exact Or.inr ⟨b, pre, x, post, hb, h.2, hx⟩
    · rw [if_neg ht, ih]
      constructor
      · rintro ⟨h1, h2⟩
        refine ⟨?_, ?_⟩
        · intro x hx hxt
          rcases List.mem_cons.1 hx with rfl | hx
          · exact absurd hxt ht
          · exact h1 x hx hxt
        · rcases h2 with ⟨rfl, h2⟩ | ⟨b, pre, x, post, h⟩
          · refine Or.inl ⟨rfl, ?_⟩
            intro x hx
            rcases List.mem_cons.1 hx with rfl | hx
            · exact ht
            · exact h2 x hx
          · exact Or.inr ⟨b, e :: pre, x, post, h.1, by rw [h.2.1]; rfl, h.2.2⟩
      · rintro ⟨h1, h2⟩
        refine ⟨fun x hx => h1 x (List.mem_cons_of_mem _ hx), ?_⟩
        rcases h2 with ⟨ho, h2⟩ | ⟨b, pre, x, post, hb, h, hx⟩
        · exact Or.inl ⟨ho, fun x hx => h2 x (List.mem_cons_of_mem _ hx)⟩
        · cases pre with
          | nil =>
            simp only [List.nil_append, List.cons.injEq] at h
            obtain ⟨rfl, rfl⟩ := h
            exact absurd hx.1 ht
          | cons y pre =>
            simp only [List.cons_append, List.cons.injEq] at h
            exact Or.inr ⟨b, pre, x, post, hb, h.2, hx⟩

theorem scan_iff {α : Type} {t : Nat} {rd : Raw → Option α} {R : Raw → α → Prop}
    (hR : ∀ e a, e.type = t → (rd e = some a ↔ R e a)) (es : List Raw) (o : Option α) :
    scan t rd none es = some o ↔ FieldIs t R es o := by
  rw [scan_iff_aux hR]
  unfold FieldIs
  cases o with
  | none =>
    simp only [true_and]
    constructor
    · rintro ⟨h1, h2 | ⟨a, _, _, _, h, _⟩⟩
      · exact ⟨h1, h2⟩
      · cases h
    · rintro ⟨h1, h2⟩
      exact ⟨h1, Or.inl h2⟩
  | some a =>
    constructor
    · rintro ⟨h1, ⟨h, _⟩ | ⟨b, pre, e, post, hb, h⟩⟩
      · cases h
      · cases hb
        exact ⟨h1, pre, e, post, h⟩
    · rintro ⟨h1, pre, e, post, h⟩
      exact ⟨h1, Or.inr ⟨a, pre, e, post, rfl, h⟩⟩

/-! ### The readers -/

theorem nameOf_isName (e : Raw) (n : List Comp) : nameOf e = some n ↔ IsName e n := by
  unfold nameOf IsName
  by_cases h : e.type = 7
  · rw [if_neg (by simp [h]), Option.map_eq_some_iff]
    constructor
    · rintro ⟨es, h1, rfl⟩
      exact ⟨h, es, parseElements_iff.1 h1, rfl⟩
    · rintro ⟨_, es, h1, rfl⟩
      exact ⟨es, parseElements_iff.2 h1, rfl⟩
  · rw [if_pos h]
    constructor
    · intro h; cases h
    · rintro ⟨h1, _⟩; exact absurd h1 h

theorem strategyOf_iff (e : Raw) (n : List Comp) : strategyOf e = some n ↔ HoldsName e n := by
  unfold strategyOf HoldsName
  constructor
  · intro h
    split at h
    · rename_i x rest hp
      exact ⟨x, rest, parseElements_iff.1 hp, (nameOf_isName _ _).1 h⟩
    · cases h
  · rintro ⟨x, rest, hp, h⟩
    rw [parseElements_iff.2 hp]
    exact (nameOf_isName _ _).2 h

theorem nni_lt {v : Bytes} {n : Nat} (h : NniForm v n) : n < 2 ^ 64 := by
  have u : ∀ a : UInt8, a.toNat < 256 := fun a => a.toNat_lt
  cases h with
  | one a => have := u a; omega
  | two a b => have := u a; have := u b; omega
  | four a b c d => have := u a; have := u b; have := u c; have := u d; omega
  | eight a b c d e f g h =>
    have := u a; have := u b; have := u c; have := u d; have := u e; have := u f; have := u g; have := u h; omega

theorem num_iff (e : Raw) (n : Nat) : readNniValue e.value = some n ↔ IsNum (2 ^ 64 - 1) e n := by
  unfold IsNum
  rw [readNniValue_iff]
  constructor
  · intro h; exact ⟨h, by have := nni_lt h; omega⟩
  · exact fun h => h.1

theorem numAs_iff (mx : Nat) (e : Raw) (n : Nat) : readNniValueAs mx e.value = some n ↔ IsNum mx e n := by
  unfold IsNum readNniValueAs
  cases h : readNniValue e.value with
  | none =>
    simp only
    constructor
    · intro h; cases h
    · rintro ⟨h1, _⟩; rw [readNniValue_iff.2 h1] at h; cases h
  | some m =>
    simp only
    have hm := readNniValue_iff.1 h
    constructor
    · intro h1
      split at h1
      · cases h1
      · cases h1; exact ⟨hm, by omega⟩
    · rintro ⟨h1, h2⟩
      rw [readNniValue_iff.2 h1] at h
      cases h
      rw [if_neg (by omega)]

theorem signed_iff (e : Raw) (d : Int) : (readNniValue e.value).map toI64 = some d ↔ IsSigned e d := by
  unfold IsSigned
  rw [Option.map_eq_some_iff]
  constructor
  · rintro ⟨n, h, rfl⟩
    have h1 := readNniValue_iff.1 h
    have h2 := nni_lt h1
    refine ⟨n, h1, ?_⟩
    unfold toI64
    split <;> omega
  · rintro ⟨n, h, h1, h2, h3⟩
    have h4 := nni_lt h
    refine ⟨n, readNniValue_iff.2 h, ?_⟩
    unfold toI64
    split <;> omega

/-! ### Decoding -/

/-- What the loop leaves in each field. -/
structure Scans (p : Params) (es : List Raw) (q : Params) : Prop where
  name : scan 7 nameOf p.name es = some q.name
  faceId : scan 105 (fun e => readNniValue e.value) p.faceId es = some q.faceId
  uri : scan 114 (fun e => some e.value) p.uri es = some q.uri
  localUri : scan 129 (fun e => some e.value) p.localUri es = some q.localUri
  origin : scan 111 (fun e => readNniValueAs 65535 e.value) p.origin es = some q.origin
  cost : scan 106 (fun e => readNniValue e.value) p.cost es = some q.cost
  capacity : scan 131 (fun e => readNniValue e.value) p.capacity es = some q.capacity
  count : scan 132 (fun e => readNniValue e.value) p.count es = some q.count
  flags : scan 108 (fun e => readNniValue e.value) p.flags es = some q.flags
  mask : scan 112 (fun e => readNniValue e.value) p.mask es = some q.mask
  strategy : scan 107 strategyOf p.strategy es = some q.strategy
  expirationPeriod : scan 109 (fun e => (readNniValue e.value).map toI64) p.expirationPeriod es = some q.expirationPeriod
  facePersistency : scan 133 (fun e => readNniValueAs 255 e.value) p.facePersistency es = some q.facePersistency
  baseCongestionMarkingInterval : scan 135 (fun e => (readNniValue e.value).map toI64) p.baseCongestionMarkingInterval es =
    some q.baseCongestionMarkingInterval
  defaultCongestionThreshold : scan 136 (fun e => readNniValue e.value) p.defaultCongestionThreshold es =
    some q.defaultCongestionThreshold
  mtu : scan 137 (fun e => readNniValue e.value) p.mtu es = some q.mtu

theorem scans_nil (p q : Params) : Scans p [] q ↔ p = q := by
  constructor
  · rintro ⟨h1, h2, h3, h4, h5, h6, h7, h8, h9, h10, h11, h12, h13, h14, h15, h16⟩
    simp only [scan, Option.some.injEq] at h1 h2 h3 h4 h5 h6 h7 h8 h9 h10 h11 h12 h13 h14 h15 h16
    cases p; cases q; simp_all
  · rintro rfl
    constructor <;> rfl

theorem scans_and (p : Params) (es : List Raw) (q : Params) : Scans p es q ↔
    (scan 7 nameOf p.name es = some q.name ∧
    scan 105 (fun e => readNniValue e.value) p.faceId es = some q.faceId ∧
    scan 114 (fun e => some e.value) p.uri es = some q.uri ∧
    scan 129 (fun e => some e.value) p.localUri es = some q.localUri ∧
    scan 111 (fun e => readNniValueAs 65535 e.value) p.origin es = some q.origin ∧
    scan 106 (fun e => readNniValue e.value) p.cost es = some q.cost ∧
    scan 131 (fun e => readNniValue e.value) p.capacity es = some q.capacity ∧
    scan 132 (fun e => readNniValue e.value) p.count es = some q.count ∧
    scan 108 (fun e => readNniValue e.value) p.flags es = some q.flags ∧
    scan 112 (fun e => readNniValue e.value) p.mask es = some q.mask ∧
    scan 107 strategyOf p.strategy es = some q.strategy ∧
    scan 109 (fun e => (readNniValue e.value).map toI64) p.expirationPeriod es = some q.expirationPeriod ∧
    scan 133 (fun e => readNniValueAs 255 e.value) p.facePersistency es = some q.facePersistency ∧
    scan 135 (fun e => (readNniValue e.value).map toI64) p.baseCongestionMarkingInterval es =
      some q.baseCongestionMarkingInterval ∧
    scan 136 (fun e => readNniValue e.value) p.defaultCongestionThreshold es = some q.defaultCongestionThreshold ∧
    scan 137 (fun e => readNniValue e.value) p.mtu es = some q.mtu) := by
  constructor
  · rintro ⟨h1, h2, h3, h4, h5, h6, h7, h8, h9, h10, h11, h12, h13, h14, h15, h16⟩
    exact ⟨h1, h2, h3, h4, h5, h6, h7, h8, h9, h10, h11, h12, h13, h14, h15, h16⟩
  · rintro ⟨h1, h2, h3, h4, h5, h6, h7, h8, h9, h10, h11, h12, h13, h14, h15, h16⟩
    exact ⟨h1, h2, h3, h4, h5, h6, h7, h8, h9, h10, h11, h12, h13, h14, h15, h16⟩

theorem scan_cons_of {α : Type} {t : Nat} {rd : Raw → Option α} {acc : Option α} {e : Raw} {es : List Raw} (h : e.type = t) :
    scan t rd acc (e :: es) = (rd e).bind fun a => scan t rd (some a) es := by rw [scan, if_pos h]

theorem scan_cons_ne {α : Type} {t : Nat} {rd : Raw → Option α} {acc : Option α} {e : Raw} {es : List Raw} (h : e.type ≠ t) :
    scan t rd acc (e :: es) = scan t rd acc es := by rw [scan, if_neg h]

theorem scans_cons (p q : Params) (e : Raw) (es : List Raw) :
    Scans p (e :: es) q ↔ ∃ r, p.take e = some r ∧ Scans r es q := by
  rw [scans_and]
  by_cases h7 : e.type = 7
  · simp only [scan, Params.take, h7, if_true, if_false, Nat.reduceEqDiff, Option.bind_some]
    cases hr : nameOf e with
    | none => simp
    | some a =>
      simp only [Option.bind_some, Option.map_some]
      constructor
      · intro h
        exact ⟨_, rfl, (scans_and _ _ _).2 h⟩
      · rintro ⟨r, hr, h⟩
        cases hr
        exact (scans_and _ _ _).1 h
  by_cases h105 : e.type = 105
  · simp only [scan, Params.take, h105, if_true, if_false, Nat.reduceEqDiff, Option.bind_some]
    cases hr : readNniValue e.value with
    | none => simp
    | some a =>
      simp only [Option.bind_some, Option.map_some]
      constructor
      · intro h
        exact ⟨_, rfl, (scans_and _ _ _).2 h⟩
      · rintro ⟨r, hr, h⟩
        cases hr
        exact (scans_and _ _ _).1 h
  by_cases h114 : e.type = 114
  · simp only [scan, Params.take, h114, if_true, if_false, Nat.reduceEqDiff, Option.bind_some]
    constructor
    · intro h
      exact ⟨_, rfl, (scans_and _ _ _).2 h⟩
    · rintro ⟨r, hr, h⟩
      cases hr
      exact (scans_and _ _ _).1 h
  by_cases h129 : e.type = 129
  · simp only [scan, Params.take, h129, if_true, if_false, Nat.reduceEqDiff, Option.bind_some]
    constructor
    · intro h
      exact ⟨_, rfl, (scans_and _ _ _).2 h⟩
    · rintro ⟨r, hr, h⟩
      cases hr
      exact (scans_and _ _ _).1 h
  by_cases h111 : e.type = 111
  · simp only [scan, Params.take, h111, if_true, if_false, Nat.reduceEqDiff, Option.bind_some]
    cases hr : readNniValueAs 65535 e.value with
    | none => simp
    | some a =>
      simp only [Option.bind_some, Option.map_some]
      constructor
      · intro h
        exact ⟨_, rfl, (scans_and _ _ _).2 h⟩
      · rintro ⟨r, hr, h⟩
        cases hr
        exact (scans_and _ _ _).1 h
  by_cases h106 : e.type = 106
  · simp only [scan, Params.take, h106, if_true, if_false, Nat.reduceEqDiff, Option.bind_some]
    cases hr : readNniValue e.value with
    | none => simp
    | some a =>
      simp only [Option.bind_some, Option.map_some]
      constructor
      · intro h
        exact ⟨_, rfl, (scans_and _ _ _).2 h⟩
      · rintro ⟨r, hr, h⟩
        cases hr
        exact (scans_and _ _ _).1 h
  by_cases h131 : e.type = 131
  · simp only [scan, Params.take, h131, if_true, if_false, Nat.reduceEqDiff, Option.bind_some]
    cases hr : readNniValue e.value with
    | none => simp
    | some a =>
      simp only [Option.bind_some, Option.map_some]
      constructor
      · intro h
        exact ⟨_, rfl, (scans_and _ _ _).2 h⟩
      · rintro ⟨r, hr, h⟩
        cases hr
        exact (scans_and _ _ _).1 h
  by_cases h132 : e.type = 132
  · simp only [scan, Params.take, h132, if_true, if_false, Nat.reduceEqDiff, Option.bind_some]
    cases hr : readNniValue e.value with
    | none => simp
    | some a =>
      simp only [Option.bind_some, Option.map_some]
      constructor
      · intro h
        exact ⟨_, rfl, (scans_and _ _ _).2 h⟩
      · rintro ⟨r, hr, h⟩
        cases hr
        exact (scans_and _ _ _).1 h
  by_cases h108 : e.type = 108
  · simp only [scan, Params.take, h108, if_true, if_false, Nat.reduceEqDiff, Option.bind_some]
    cases hr : readNniValue e.value with
    | none => simp
    | some a =>
      simp only [Option.bind_some, Option.map_some]
      constructor
      · intro h
        exact ⟨_, rfl, (scans_and _ _ _).2 h⟩
      · rintro ⟨r, hr, h⟩
        cases hr
        exact (scans_and _ _ _).1 h
  by_cases h112 : e.type = 112
  · simp only [scan, Params.take, h112, if_true, if_false, Nat.reduceEqDiff, Option.bind_some]
    cases hr : readNniValue e.value with
    | none => simp
    | some a =>
      simp only [Option.bind_some, Option.map_some]
      constructor
      · intro h
        exact ⟨_, rfl, (scans_and _ _ _).2 h⟩
      · rintro ⟨r, hr, h⟩
        cases hr
        exact (scans_and _ _ _).1 h
  by_cases h107 : e.type = 107
  · simp only [scan, Params.take, h107, if_true, if_false, Nat.reduceEqDiff, Option.bind_some]
    cases hr : strategyOf e with
    | none => simp
    | some a =>
      simp only [Option.bind_some, Option.map_some]
      constructor
      · intro h
        exact ⟨_, rfl, (scans_and _ _ _).2 h⟩
      · rintro ⟨r, hr, h⟩
        cases hr
        exact (scans_and _ _ _).1 h
  by_cases h109 : e.type = 109
  · simp only [scan, Params.take, h109, if_true, if_false, Nat.reduceEqDiff, Option.bind_some]
    cases hr : readNniValue e.value with
    | none => simp
    | some a =>
      simp only [Option.bind_some, Option.map_some]
      constructor
      · intro h
        exact ⟨_, rfl, (scans_and _ _ _).2 h⟩
      · rintro ⟨r, hr, h⟩
        cases hr
        exact (scans_and _ _ _).1 h
  by_cases h133 : e.type = 133
  · simp only [scan, Params.take, h133, if_true, if_false, Nat.reduceEqDiff, Option.bind_some]
    cases hr : readNniValueAs 255 e.value with
    | none => simp
    | some a =>
      simp only [Option.bind_some, Option.map_some]
      constructor
      · intro h
        exact ⟨_, rfl, (scans_and _ _ _).2 h⟩
      · rintro ⟨r, hr, h⟩
        cases hr
        exact (scans_and _ _ _).1 h
  by_cases h135 : e.type = 135
  · simp only [scan, Params.take, h135, if_true, if_false, Nat.reduceEqDiff, Option.bind_some]
    cases hr : readNniValue e.value with
    | none => simp
    | some a =>
      simp only [Option.bind_some, Option.map_some]
      constructor
      · intro h
        exact ⟨_, rfl, (scans_and _ _ _).2 h⟩
      · rintro ⟨r, hr, h⟩
        cases hr
        exact (scans_and _ _ _).1 h
  by_cases h136 : e.type = 136
  · simp only [scan, Params.take, h136, if_true, if_false, Nat.reduceEqDiff, Option.bind_some]
    cases hr : readNniValue e.value with
    | none => simp
    | some a =>
      simp only [Option.bind_some, Option.map_some]
      constructor
      · intro h
        exact ⟨_, rfl, (scans_and _ _ _).2 h⟩
      · rintro ⟨r, hr, h⟩
        cases hr
        exact (scans_and _ _ _).1 h
  by_cases h137 : e.type = 137
  · simp only [scan, Params.take, h137, if_true, if_false, Nat.reduceEqDiff, Option.bind_some]
    cases hr : readNniValue e.value with
    | none => simp
    | some a =>
      simp only [Option.bind_some, Option.map_some]
      constructor
      · intro h
        exact ⟨_, rfl, (scans_and _ _ _).2 h⟩
      · rintro ⟨r, hr, h⟩
        cases hr
        exact (scans_and _ _ _).1 h
  simp only [scan, Params.take, h7, h105, h114, h129, h111, h106, h131, h132, h108, h112, h107, h109, h133, h135, h136, h137, if_false]
  constructor
  · intro h
    exact ⟨_, rfl, (scans_and _ _ _).2 h⟩
  · rintro ⟨r, hr, h⟩
    cases hr
    exact (scans_and _ _ _).1 h

theorem takeAll_iff (es : List Raw) : ∀ p q, takeAll p es = some q ↔ Scans p es q := by
  induction es with
  | nil => intro p q; rw [scans_nil]; simp [takeAll]
  | cons e es ih =>
    intro p q
    rw [scans_cons]
    unfold takeAll
    cases p.take e with
    | none => simp
    | some r => simp [ih]

theorem scans_means (es : List Raw) (q : Params) : Scans {} es q ↔ Means es q := by
  have hn := fun e a (_ : e.type = 7) => nameOf_isName e a
  have hu : ∀ t, ∀ (e : Raw) a, e.type = t → (readNniValue e.value = some a ↔ IsNum (2 ^ 64 - 1) e a) :=
    fun _ e a _ => num_iff e a
  have hv : ∀ t mx, ∀ (e : Raw) a, e.type = t → (readNniValueAs mx e.value = some a ↔ IsNum mx e a) :=
    fun _ mx e a _ => numAs_iff mx e a
  have hs : ∀ t, ∀ (e : Raw) a, e.type = t → ((readNniValue e.value).map toI64 = some a ↔ IsSigned e a) :=
    fun _ e a _ => signed_iff e a
  have ht : ∀ t, ∀ (e : Raw) a, e.type = t → ((some e.value : Option Bytes) = some a ↔ IsText e a) := by
    intro t e a _; unfold IsText; simp [eq_comm]
  have hg := fun (e : Raw) a (_ : e.type = 107) => strategyOf_iff e a
  constructor
  · intro h
    exact ⟨(scan_iff hn _ _).1 h.name, (scan_iff (hu 105) _ _).1 h.faceId, (scan_iff (ht 114) _ _).1 h.uri,
      (scan_iff (ht 129) _ _).1 h.localUri, (scan_iff (hv 111 65535) _ _).1 h.origin, (scan_iff (hu 106) _ _).1 h.cost,
      (scan_iff (hu 131) _ _).1 h.capacity, (scan_iff (hu 132) _ _).1 h.count, (scan_iff (hu 108) _ _).1 h.flags,
      (scan_iff (hu 112) _ _).1 h.mask, (scan_iff hg _ _).1 h.strategy, (scan_iff (hs 109) _ _).1 h.expirationPeriod,
      (scan_iff (hv 133 255) _ _).1 h.facePersistency, (scan_iff (hs 135) _ _).1 h.baseCongestionMarkingInterval,
      (scan_iff (hu 136) _ _).1 h.defaultCongestionThreshold, (scan_iff (hu 137) _ _).1 h.mtu⟩
  · intro h
    exact ⟨(scan_iff hn _ _).2 h.name, (scan_iff (hu 105) _ _).2 h.faceId, (scan_iff (ht 114) _ _).2 h.uri,
      (scan_iff (ht 129) _ _).2 h.localUri, (scan_iff (hv 111 65535) _ _).2 h.origin, (scan_iff (hu 106) _ _).2 h.cost,
      (scan_iff (hu 131) _ _).2 h.capacity, (scan_iff (hu 132) _ _).2 h.count, (scan_iff (hu 108) _ _).2 h.flags,
      (scan_iff (hu 112) _ _).2 h.mask, (scan_iff hg _ _).2 h.strategy, (scan_iff (hs 109) _ _).2 h.expirationPeriod,
      (scan_iff (hv 133 255) _ _).2 h.facePersistency, (scan_iff (hs 135) _ _).2 h.baseCongestionMarkingInterval,
      (scan_iff (hu 136) _ _).2 h.defaultCongestionThreshold, (scan_iff (hu 137) _ _).2 h.mtu⟩

/-! ### Encoding -/

def optRaw {α : Type} (o : Option α) (f : α → Raw) : List Raw :=
  match o with
  | some a => [f a]
  | none => []

theorem optRaw_wire {α : Type} (o : Option α) (f : α → Raw) (g : α → Bytes) (h : ∀ a, (f a).wire = g a) :
    ((optRaw o f).map Raw.wire).flatten = optElem o g := by
  cases o <;> simp [optRaw, optElem, h]

theorem mem_optRaw {α : Type} {o : Option α} {f : α → Raw} {e : Raw} : e ∈ optRaw o f ↔ ∃ a, o = some a ∧ e = f a := by
  cases o <;> simp [optRaw]

theorem scan_append {α : Type} (t : Nat) (rd : Raw → Option α) (xs ys : List Raw) : ∀ acc,
    scan t rd acc (xs ++ ys) = (scan t rd acc xs).bind fun a => scan t rd a ys := by
  induction xs with
  | nil => intro acc; rfl
  | cons x xs ih =>
    intro acc
    simp only [List.cons_append, scan]
    split
    · cases rd x with
      | none => rfl
      | some a => simp [ih]
    · exact ih acc

theorem scan_other {α β : Type} {t : Nat} {rd : Raw → Option α} {acc : Option α} {o : Option β} {f : β → Raw} {u : Nat}
    (hu : ∀ b, (f b).type = u) (h : u ≠ t) : scan t rd acc (optRaw o f) = some acc := by
  cases o with
  | none => rfl
  | some b => simp [optRaw, scan, hu, h]

theorem scan_own {α : Type} {t : Nat} {rd : Raw → Option α} {o : Option α} {f : α → Raw}
    (hu : ∀ b, (f b).type = t) (h : ∀ a, o = some a → rd (f a) = some a) : scan t rd none (optRaw o f) = some o := by
  cases o with
  | none => rfl
  | some b => simp [optRaw, scan, hu, h b rfl]

theorem scan_skip {α β : Type} {t : Nat} {rd : Raw → Option α} {acc : Option α} {o : Option β} {f : β → Raw} {u : Nat}
    {ys : List Raw} (hu : ∀ b, (f b).type = u) (h : u ≠ t) : scan t rd acc (optRaw o f ++ ys) = scan t rd acc ys := by
  rw [scan_append, scan_other hu h]; rfl

/-- An element holding a number. -/
def numRaw (t : Nat) (n : Nat) : Raw := binaryBlock t (writeNonNegativeInteger n)
def durRaw (t : Nat) (d : Int) : Raw := binaryBlock t (writeNonNegativeInteger (toU64 d))
def stratRaw (n : List Comp) : Raw := binaryBlock 107 (encodeComps n)

/-- The elements an encoding has. -/
def Params.elems (p : Params) : List Raw :=
  optRaw p.name nameRaw ++ (optRaw p.faceId (numRaw 105) ++ (optRaw p.uri (binaryBlock 114) ++
  (optRaw p.localUri (binaryBlock 129) ++ (optRaw p.origin (numRaw 111) ++ (optRaw p.cost (numRaw 106) ++
  (optRaw p.capacity (numRaw 131) ++ (optRaw p.count (numRaw 132) ++ (optRaw p.flags (numRaw 108) ++
  (optRaw p.mask (numRaw 112) ++ (optRaw p.strategy stratRaw ++ (optRaw p.expirationPeriod (durRaw 109) ++
  (optRaw p.facePersistency (numRaw 133) ++ (optRaw p.baseCongestionMarkingInterval (durRaw 135) ++
  (optRaw p.defaultCongestionThreshold (numRaw 136) ++ optRaw p.mtu (numRaw 137)))))))))))))))

theorem elems_wire (p : Params) : p.value = (p.elems.map Raw.wire).flatten := by
  unfold Params.value Params.elems
  simp only [List.map_append, List.flatten_append, List.append_assoc]
  rw [optRaw_wire p.name nameRaw encodeComps nameRaw_wire, optRaw_wire p.faceId _ (nniTlv 105) (fun _ => rfl),
    optRaw_wire p.uri _ (tlvBytes 114) (fun _ => rfl), optRaw_wire p.localUri _ (tlvBytes 129) (fun _ => rfl),
    optRaw_wire p.origin _ (nniTlv 111) (fun _ => rfl), optRaw_wire p.cost _ (nniTlv 106) (fun _ => rfl),
    optRaw_wire p.capacity _ (nniTlv 131) (fun _ => rfl), optRaw_wire p.count _ (nniTlv 132) (fun _ => rfl),
    optRaw_wire p.flags _ (nniTlv 108) (fun _ => rfl), optRaw_wire p.mask _ (nniTlv 112) (fun _ => rfl),
    optRaw_wire p.strategy _ (fun n => tlvBytes 107 (encodeComps n)) (fun _ => rfl),
    optRaw_wire p.expirationPeriod _ (fun d => nniTlv 109 (toU64 d)) (fun _ => rfl),
    optRaw_wire p.facePersistency _ (nniTlv 133) (fun _ => rfl),
    optRaw_wire p.baseCongestionMarkingInterval _ (fun d => nniTlv 135 (toU64 d)) (fun _ => rfl),
    optRaw_wire p.defaultCongestionThreshold _ (nniTlv 136) (fun _ => rfl), optRaw_wire p.mtu _ (nniTlv 137) (fun _ => rfl)]

theorem numRaw_wf {t n : Nat} (h0 : 1 ≤ t) (h1 : t ≤ 2 ^ 32 - 1) : RawWF (numRaw t n) := binaryBlock_wf h0 h1 (nni_len_lt n)

theorem elems_wf {p : Params} (h : p.value.length < 2 ^ 64) : ∀ e ∈ p.elems, RawWF e := by
  intro e he
  have hl : e.wire.length < 2 ^ 64 := by
    have := flatten_mem_le he
    rw [← elems_wire] at this
    omega
  have hb : ∀ t v, 1 ≤ t → t ≤ 2 ^ 32 - 1 → e = binaryBlock t v → RawWF e := by
    rintro t v h0 h1 rfl
    have h2 := tlvBytes_ge t v
    exact binaryBlock_wf h0 h1 (Nat.lt_of_le_of_lt h2 hl)
  unfold Params.elems at he
  simp only [List.mem_append, mem_optRaw] at he
  rcases he with ⟨a, _, rfl⟩ | ⟨a, _, rfl⟩ | ⟨a, _, rfl⟩ | ⟨a, _, rfl⟩ | ⟨a, _, rfl⟩ | ⟨a, _, rfl⟩ | ⟨a, _, rfl⟩ | ⟨a, _, rfl⟩ |
    ⟨a, _, rfl⟩ | ⟨a, _, rfl⟩ | ⟨a, _, rfl⟩ | ⟨a, _, rfl⟩ | ⟨a, _, rfl⟩ | ⟨a, _, rfl⟩ | ⟨a, _, rfl⟩ | ⟨a, _, rfl⟩
  all_goals first
    | exact hb _ _ (by decide) (by decide) rfl

theorem toI64_toU64 {d : Int} (h : -2 ^ 63 ≤ d ∧ d < 2 ^ 63) : toI64 (toU64 d) = d := by
  unfold toI64 toU64
  split <;> omega

theorem toU64_lt (d : Int) : toU64 d < 2 ^ 64 := by
  unfold toU64; omega

theorem scans_elems {p : Params} (h : Ok p) : Scans {} p.elems p := by
  have hsz : ∀ n, p.name = some n → (encodeComps n).length < 2 ^ 64 := by
    intro n hn
    have h1 : nameRaw n ∈ p.elems := by
      unfold Params.elems
      exact List.mem_append_left _ (mem_optRaw.2 ⟨n, hn, rfl⟩)
    have h2 := flatten_mem_le h1
    rw [← elems_wire, nameRaw_wire] at h2
    have := h.size
    omega
  have hss : ∀ n, p.strategy = some n → (encodeComps n).length < 2 ^ 64 := by
    intro n hn
    have h1 : stratRaw n ∈ p.elems := by
      unfold Params.elems
      simp only [List.mem_append, mem_optRaw]
      exact Or.inr (Or.inr (Or.inr (Or.inr (Or.inr (Or.inr (Or.inr (Or.inr (Or.inr (Or.inr (Or.inl ⟨n, hn, rfl⟩))))))))))
    have h2 := flatten_mem_le h1
    rw [← elems_wire] at h2
    have h3 : (encodeComps n).length ≤ (stratRaw n).wire.length := tlvBytes_ge _ _
    have := h.size
    omega
  have num : ∀ t n, n < 2 ^ 64 → readNniValue (numRaw t n).value = some n := fun t n hn => readNniValue_write hn
  have numA : ∀ t n mx, n ≤ mx → mx < 2 ^ 64 → readNniValueAs mx (numRaw t n).value = some n :=
    fun t n mx hn hm => readNniAs_write hn (by omega)
  have dur : ∀ t d, (-2 ^ 63 ≤ d ∧ d < 2 ^ 63) → (readNniValue (durRaw t d).value).map toI64 = some d := by
    intro t d hd
    rw [show (durRaw t d).value = writeNonNegativeInteger (toU64 d) from rfl, readNniValue_write (toU64_lt d)]
    simp [toI64_toU64 hd]
  have strat : ∀ n, p.strategy = some n → strategyOf (stratRaw n) = some n := by
    intro n hn
    unfold strategyOf
    have h1 : parseElements (stratRaw n).value = some [nameRaw n] := by
      refine parseElements_iff.2 ⟨?_, ?_⟩
      · simp [stratRaw, binaryBlock, nameRaw_wire]
      · intro e he
        simp only [List.mem_singleton] at he
        subst he
        exact nameRaw_wf (hss n hn)
    rw [h1]
    exact nameOf_nameRaw (h.strategy n hn) (hss n hn)
  constructor <;> unfold Params.elems <;> dsimp only
  · rw [scan_append, scan_own (t := 7) (rd := nameOf) (f := nameRaw) (o := p.name) (fun _ => rfl) (fun a ha => nameOf_nameRaw (h.name a ha) (hsz a ha)), Option.bind_some,
      scan_skip (o := p.faceId) (u := 105) (fun _ => rfl) (by decide),
      scan_skip (o := p.uri) (u := 114) (fun _ => rfl) (by decide),
      scan_skip (o := p.localUri) (u := 129) (fun _ => rfl) (by decide),
      scan_skip (o := p.origin) (u := 111) (fun _ => rfl) (by decide),
      scan_skip (o := p.cost) (u := 106) (fun _ => rfl) (by decide),
      scan_skip (o := p.capacity) (u := 131) (fun _ => rfl) (by decide),
      scan_skip (o := p.count) (u := 132) (fun _ => rfl) (by decide),
      scan_skip (o := p.flags) (u := 108) (fun _ => rfl) (by decide),
      scan_skip (o := p.mask) (u := 112) (fun _ => rfl) (by decide),
      scan_skip (o := p.strategy) (u := 107) (fun _ => rfl) (by decide),
      scan_skip (o := p.expirationPeriod) (u := 109) (fun _ => rfl) (by decide),
      scan_skip (o := p.facePersistency) (u := 133) (fun _ => rfl) (by decide),
      scan_skip (o := p.baseCongestionMarkingInterval) (u := 135) (fun _ => rfl) (by decide),
      scan_skip (o := p.defaultCongestionThreshold) (u := 136) (fun _ => rfl) (by decide),
      scan_other (o := p.mtu) (u := 137) (fun _ => rfl) (by decide)]
  · rw [scan_skip (o := p.name) (u := 7) (fun _ => rfl) (by decide),
      scan_append, scan_own (t := 105) (rd := (fun e => readNniValue e.value)) (f := (numRaw 105)) (o := p.faceId) (fun _ => rfl) (fun a ha => num _ _ (h.faceId a ha)), Option.bind_some,
      scan_skip (o := p.uri) (u := 114) (fun _ => rfl) (by decide),
      scan_skip (o := p.localUri) (u := 129) (fun _ => rfl) (by decide),
      scan_skip (o := p.origin) (u := 111) (fun _ => rfl) (by decide),
      scan_skip (o := p.cost) (u := 106) (fun _ => rfl) (by decide),
      scan_skip (o := p.capacity) (u := 131) (fun _ => rfl) (by decide),
      scan_skip (o := p.count) (u := 132) (fun _ => rfl) (by decide),
      scan_skip (o := p.flags) (u := 108) (fun _ => rfl) (by decide),
      scan_skip (o := p.mask) (u := 112) (fun _ => rfl) (by decide),
      scan_skip (o := p.strategy) (u := 107) (fun _ => rfl) (by decide),
      scan_skip (o := p.expirationPeriod) (u := 109) (fun _ => rfl) (by decide),
      scan_skip (o := p.facePersistency) (u := 133) (fun _ => rfl) (by decide),
      scan_skip (o := p.baseCongestionMarkingInterval) (u := 135) (fun _ => rfl) (by decide),
      scan_skip (o := p.defaultCongestionThreshold) (u := 136) (fun _ => rfl) (by decide),
      scan_other (o := p.mtu) (u := 137) (fun _ => rfl) (by decide)]
  · rw [scan_skip (o := p.name) (u := 7) (fun _ => rfl) (by decide),
      scan_skip (o := p.faceId) (u := 105) (fun _ => rfl) (by decide),
      scan_append, scan_own (t := 114) (rd := (fun e => some e.value)) (f := (binaryBlock 114)) (o := p.uri) (fun _ => rfl) (fun _ _ => rfl), Option.bind_some,
      scan_skip (o := p.localUri) (u := 129) (fun _ => rfl) (by decide),
      scan_skip (o := p.origin) (u := 111) (fun _ => rfl) (by decide),
      scan_skip (o := p.cost) (u := 106) (fun _ => rfl) (by decide),
      scan_skip (o := p.capacity) (u := 131) (fun _ => rfl) (by decide),
      scan_skip (o := p.count) (u := 132) (fun _ => rfl) (by decide),
      scan_skip (o := p.flags) (u := 108) (fun _ => rfl) (by decide),
      scan_skip (o := p.mask) (u := 112) (fun _ => rfl) (by decide),
      scan_skip (o := p.strategy) (u := 107) (fun _ => rfl) (by decide),
      scan_skip (o := p.expirationPeriod) (u := 109) (fun _ => rfl) (by decide),
      scan_skip (o := p.facePersistency) (u := 133) (fun _ => rfl) (by decide),
      scan_skip (o := p.baseCongestionMarkingInterval) (u := 135) (fun _ => rfl) (by decide),
      scan_skip (o := p.defaultCongestionThreshold) (u := 136) (fun _ => rfl) (by decide),
      scan_other (o := p.mtu) (u := 137) (fun _ => rfl) (by decide)]
  · rw [scan_skip (o := p.name) (u := 7) (fun _ => rfl) (by decide),
      scan_skip (o := p.faceId) (u := 105) (fun _ => rfl) (by decide),
      scan_skip (o := p.uri) (u := 114) (fun _ => rfl) (by decide),
      scan_append, scan_own (t := 129) (rd := (fun e => some e.value)) (f := (binaryBlock 129)) (o := p.localUri) (fun _ => rfl) (fun _ _ => rfl), Option.bind_some,
      scan_skip (o := p.origin) (u := 111) (fun _ => rfl) (by decide),
      scan_skip (o := p.cost) (u := 106) (fun _ => rfl) (by decide),
      scan_skip (o := p.capacity) (u := 131) (fun _ => rfl) (by decide),
      scan_skip (o := p.count) (u := 132) (fun _ => rfl) (by decide),
      scan_skip (o := p.flags) (u := 108) (fun _ => rfl) (by decide),
      scan_skip (o := p.mask) (u := 112) (fun _ => rfl) (by decide),
      scan_skip (o := p.strategy) (u := 107) (fun _ => rfl) (by decide),
      scan_skip (o := p.expirationPeriod) (u := 109) (fun _ => rfl) (by decide),
      scan_skip (o := p.facePersistency) (u := 133) (fun _ => rfl) (by decide),
      scan_skip (o := p.baseCongestionMarkingInterval) (u := 135) (fun _ => rfl) (by decide),
      scan_skip (o := p.defaultCongestionThreshold) (u := 136) (fun _ => rfl) (by decide),
      scan_other (o := p.mtu) (u := 137) (fun _ => rfl) (by decide)]
  · rw [scan_skip (o := p.name) (u := 7) (fun _ => rfl) (by decide),
      scan_skip (o := p.faceId) (u := 105) (fun _ => rfl) (by decide),
      scan_skip (o := p.uri) (u := 114) (fun _ => rfl) (by decide),
      scan_skip (o := p.localUri) (u := 129) (fun _ => rfl) (by decide),
      scan_append, scan_own (t := 111) (rd := (fun e => readNniValueAs 65535 e.value)) (f := (numRaw 111)) (o := p.origin) (fun _ => rfl) (fun a ha => numA _ _ _ (h.origin a ha) (by decide)), Option.bind_some,
      scan_skip (o := p.cost) (u := 106) (fun _ => rfl) (by decide),
      scan_skip (o := p.capacity) (u := 131) (fun _ => rfl) (by decide),
      scan_skip (o := p.count) (u := 132) (fun _ => rfl) (by decide),
      scan_skip (o := p.flags) (u := 108) (fun _ => rfl) (by decide),
      scan_skip (o := p.mask) (u := 112) (fun _ => rfl) (by decide),
      scan_skip (o := p.strategy) (u := 107) (fun _ => rfl) (by decide),
      scan_skip (o := p.expirationPeriod) (u := 109) (fun _ => rfl) (by decide),
      scan_skip (o := p.facePersistency) (u := 133) (fun _ => rfl) (by decide),
      scan_skip (o := p.baseCongestionMarkingInterval) (u := 135) (fun _ => rfl) (by decide),
      scan_skip (o := p.defaultCongestionThreshold) (u := 136) (fun _ => rfl) (by decide),
      scan_other (o := p.mtu) (u := 137) (fun _ => rfl) (by decide)]
  · rw [scan_skip (o := p.name) (u := 7) (fun _ => rfl) (by decide),
      scan_skip (o := p.faceId) (u := 105) (fun _ => rfl) (by decide),
      scan_skip (o := p.uri) (u := 114) (fun _ => rfl) (by decide),
      scan_skip (o := p.localUri) (u := 129) (fun _ => rfl) (by decide),
      scan_skip (o := p.origin) (u := 111) (fun _ => rfl) (by decide),
      scan_append, scan_own (t := 106) (rd := (fun e => readNniValue e.value)) (f := (numRaw 106)) (o := p.cost) (fun _ => rfl) (fun a ha => num _ _ (h.cost a ha)), Option.bind_some,
      scan_skip (o := p.capacity) (u := 131) (fun _ => rfl) (by decide),
      scan_skip (o := p.count) (u := 132) (fun _ => rfl) (by decide),
      scan_skip (o := p.flags) (u := 108) (fun _ => rfl) (by decide),
      scan_skip (o := p.mask) (u := 112) (fun _ => rfl) (by decide),
      scan_skip (o := p.strategy) (u := 107) (fun _ => rfl) (by decide),
      scan_skip (o := p.expirationPeriod) (u := 109) (fun _ => rfl) (by decide),
      scan_skip (o := p.facePersistency) (u := 133) (fun _ => rfl) (by decide),
      scan_skip (o := p.baseCongestionMarkingInterval) (u := 135) (fun _ => rfl) (by decide),
      scan_skip (o := p.defaultCongestionThreshold) (u := 136) (fun _ => rfl) (by decide),
      scan_other (o := p.mtu) (u := 137) (fun _ => rfl) (by decide)]
  · rw [scan_skip (o := p.name) (u := 7) (fun _ => rfl) (by decide),
      scan_skip (o := p.faceId) (u := 105) (fun _ => rfl) (by decide),
      scan_skip (o := p.uri) (u := 114) (fun _ => rfl) (by decide),
      scan_skip (o := p.localUri) (u := 129) (fun _ => rfl) (by decide),
      scan_skip (o := p.origin) (u := 111) (fun _ => rfl) (by decide),
      scan_skip (o := p.cost) (u := 106) (fun _ => rfl) (by decide),
      scan_append, scan_own (t := 131) (rd := (fun e => readNniValue e.value)) (f := (numRaw 131)) (o := p.capacity) (fun _ => rfl) (fun a ha => num _ _ (h.capacity a ha)), Option.bind_some,
      scan_skip (o := p.count) (u := 132) (fun _ => rfl) (by decide),
      scan_skip (o := p.flags) (u := 108) (fun _ => rfl) (by decide),
      scan_skip (o := p.mask) (u := 112) (fun _ => rfl) (by decide),
      scan_skip (o := p.strategy) (u := 107) (fun _ => rfl) (by decide),
      scan_skip (o := p.expirationPeriod) (u := 109) (fun _ => rfl) (by decide),
      scan_skip (o := p.facePersistency) (u := 133) (fun _ => rfl) (by decide),
      scan_skip (o := p.baseCongestionMarkingInterval) (u := 135) (fun _ => rfl) (by decide),
      scan_skip (o := p.defaultCongestionThreshold) (u := 136) (fun _ => rfl) (by decide),
      scan_other (o := p.mtu) (u := 137) (fun _ => rfl) (by decide)]
  · rw [scan_skip (o := p.name) (u := 7) (fun _ => rfl) (by decide),
      scan_skip (o := p.faceId) (u := 105) (fun _ => rfl) (by decide),
      scan_skip (o := p.uri) (u := 114) (fun _ => rfl) (by decide),
      scan_skip (o := p.localUri) (u := 129) (fun _ => rfl) (by decide),
      scan_skip (o := p.origin) (u := 111) (fun _ => rfl) (by decide),
      scan_skip (o := p.cost) (u := 106) (fun _ => rfl) (by decide),
      scan_skip (o := p.capacity) (u := 131) (fun _ => rfl) (by decide),
      scan_append, scan_own (t := 132) (rd := (fun e => readNniValue e.value)) (f := (numRaw 132)) (o := p.count) (fun _ => rfl) (fun a ha => num _ _ (h.count a ha)), Option.bind_some,
      scan_skip (o := p.flags) (u := 108) (fun _ => rfl) (by decide),
      scan_skip (o := p.mask) (u := 112) (fun _ => rfl) (by decide),
      scan_skip (o := p.strategy) (u := 107) (fun _ => rfl) (by decide),
      scan_skip (o := p.expirationPeriod) (u := 109) (fun _ => rfl) (by decide),
      scan_skip (o := p.facePersistency) (u := 133) (fun _ => rfl) (by decide),
      scan_skip (o := p.baseCongestionMarkingInterval) (u := 135) (fun _ => rfl) (by decide),
      scan_skip (o := p.defaultCongestionThreshold) (u := 136) (fun _ => rfl) (by decide),
      scan_other (o := p.mtu) (u := 137) (fun _ => rfl) (by decide)]
  · rw [scan_skip (o := p.name) (u := 7) (fun _ => rfl) (by decide),
      scan_skip (o := p.faceId) (u := 105) (fun _ => rfl) (by decide),
      scan_skip (o := p.uri) (u := 114) (fun _ => rfl) (by decide),
      scan_skip (o := p.localUri) (u := 129) (fun _ => rfl) (by decide),
      scan_skip (o := p.origin) (u := 111) (fun _ => rfl) (by decide),
      scan_skip (o := p.cost) (u := 106) (fun _ => rfl) (by decide),
      scan_skip (o := p.capacity) (u := 131) (fun _ => rfl) (by decide),
      scan_skip (o := p.count) (u := 132) (fun _ => rfl) (by decide),
      scan_append, scan_own (t := 108) (rd := (fun e => readNniValue e.value)) (f := (numRaw 108)) (o := p.flags) (fun _ => rfl) (fun a ha => num _ _ (h.flags a ha)), Option.bind_some,
      scan_skip (o := p.mask) (u := 112) (fun _ => rfl) (by decide),
      scan_skip (o := p.strategy) (u := 107) (fun _ => rfl) (by decide),
      scan_skip (o := p.expirationPeriod) (u := 109) (fun _ => rfl) (by decide),
      scan_skip (o := p.facePersistency) (u := 133) (fun _ => rfl) (by decide),
      scan_skip (o := p.baseCongestionMarkingInterval) (u := 135) (fun _ => rfl) (by decide),
      scan_skip (o := p.defaultCongestionThreshold) (u := 136) (fun _ => rfl) (by decide),
      scan_other (o := p.mtu) (u := 137) (fun _ => rfl) (by decide)]
  · rw [scan_skip (o := p.name) (u := 7) (fun _ => rfl) (by decide),
      scan_skip (o := p.faceId) (u := 105) (fun _ => rfl) (by decide),
      scan_skip (o := p.uri) (u := 114) (fun _ => rfl) (by decide),
      scan_skip (o := p.localUri) (u := 129) (fun _ => rfl) (by decide),
      scan_skip (o := p.origin) (u := 111) (fun _ => rfl) (by decide),
      scan_skip (o := p.cost) (u := 106) (fun _ => rfl) (by decide),
      scan_skip (o := p.capacity) (u := 131) (fun _ => rfl) (by decide),
      scan_skip (o := p.count) (u := 132) (fun _ => rfl) (by decide),
      scan_skip (o := p.flags) (u := 108) (fun _ => rfl) (by decide),
      scan_append, scan_own (t := 112) (rd := (fun e => readNniValue e.value)) (f := (numRaw 112)) (o := p.mask) (fun _ => rfl) (fun a ha => num _ _ (h.mask a ha)), Option.bind_some,
      scan_skip (o := p.strategy) (u := 107) (fun _ => rfl) (by decide),
      scan_skip (o := p.expirationPeriod) (u := 109) (fun _ => rfl) (by decide),
      scan_skip (o := p.facePersistency) (u := 133) (fun _ => rfl) (by decide),
      scan_skip (o := p.baseCongestionMarkingInterval) (u := 135) (fun _ => rfl) (by decide),
      scan_skip (o := p.defaultCongestionThreshold) (u := 136) (fun _ => rfl) (by decide),
      scan_other (o := p.mtu) (u := 137) (fun _ => rfl) (by decide)]
  · rw [scan_skip (o := p.name) (u := 7) (fun _ => rfl) (by decide),
      scan_skip (o := p.faceId) (u := 105) (fun _ => rfl) (by decide),
      scan_skip (o := p.uri) (u := 114) (fun _ => rfl) (by decide),
      scan_skip (o := p.localUri) (u := 129) (fun _ => rfl) (by decide),
      scan_skip (o := p.origin) (u := 111) (fun _ => rfl) (by decide),
      scan_skip (o := p.cost) (u := 106) (fun _ => rfl) (by decide),
      scan_skip (o := p.capacity) (u := 131) (fun _ => rfl) (by decide),
      scan_skip (o := p.count) (u := 132) (fun _ => rfl) (by decide),
      scan_skip (o := p.flags) (u := 108) (fun _ => rfl) (by decide),
      scan_skip (o := p.mask) (u := 112) (fun _ => rfl) (by decide),
      scan_append, scan_own (t := 107) (rd := strategyOf) (f := stratRaw) (o := p.strategy) (fun _ => rfl) (fun a ha => strat a ha), Option.bind_some,
      scan_skip (o := p.expirationPeriod) (u := 109) (fun _ => rfl) (by decide),
      scan_skip (o := p.facePersistency) (u := 133) (fun _ => rfl) (by decide),
      scan_skip (o := p.baseCongestionMarkingInterval) (u := 135) (fun _ => rfl) (by decide),
      scan_skip (o := p.defaultCongestionThreshold) (u := 136) (fun _ => rfl) (by decide),
      scan_other (o := p.mtu) (u := 137) (fun _ => rfl) (by decide)]
  · rw [scan_skip (o := p.name) (u := 7) (fun _ => rfl) (by decide),
      scan_skip (o := p.faceId) (u := 105) (fun _ => rfl) (by decide),
      scan_skip (o := p.uri) (u := 114) (fun _ => rfl) (by decide),
      scan_skip (o := p.localUri) (u := 129) (fun _ => rfl) (by decide),
      scan_skip (o := p.origin) (u := 111) (fun _ => rfl) (by decide),
      scan_skip (o := p.cost) (u := 106) (fun _ => rfl) (by decide),
      scan_skip (o := p.capacity) (u := 131) (fun _ => rfl) (by decide),
      scan_skip (o := p.count) (u := 132) (fun _ => rfl) (by decide),
      scan_skip (o := p.flags) (u := 108) (fun _ => rfl) (by decide),
      scan_skip (o := p.mask) (u := 112) (fun _ => rfl) (by decide),
      scan_skip (o := p.strategy) (u := 107) (fun _ => rfl) (by decide),
      scan_append, scan_own (t := 109) (rd := (fun e => (readNniValue e.value).map toI64)) (f := (durRaw 109)) (o := p.expirationPeriod) (fun _ => rfl) (fun a ha => dur _ _ (h.expirationPeriod a ha)), Option.bind_some,
      scan_skip (o := p.facePersistency) (u := 133) (fun _ => rfl) (by decide),
      scan_skip (o := p.baseCongestionMarkingInterval) (u := 135) (fun _ => rfl) (by decide),
      scan_skip (o := p.defaultCongestionThreshold) (u := 136) (fun _ => rfl) (by decide),
      scan_other (o := p.mtu) (u := 137) (fun _ => rfl) (by decide)]
  · rw [scan_skip (o := p.name) (u := 7) (fun _ => rfl) (by decide),
      scan_skip (o := p.faceId) (u := 105) (fun _ => rfl) (by decide),
      scan_skip (o := p.uri) (u := 114) (fun _ => rfl) (by decide),
      scan_skip (o := p.localUri) (u := 129) (fun _ => rfl) (by decide),
      scan_skip (o := p.origin) (u := 111) (fun _ => rfl) (by decide),
      scan_skip (o := p.cost) (u := 106) (fun _ => rfl) (by decide),
      scan_skip (o := p.capacity) (u := 131) (fun _ => rfl) (by decide),
      scan_skip (o := p.count) (u := 132) (fun _ => rfl) (by decide),
      scan_skip (o := p.flags) (u := 108) (fun _ => rfl) (by decide),
      scan_skip (o := p.mask) (u := 112) (fun _ => rfl) (by decide),
      scan_skip (o := p.strategy) (u := 107) (fun _ => rfl) (by decide),
      scan_skip (o := p.expirationPeriod) (u := 109) (fun _ => rfl) (by decide),
      scan_append, scan_own (t := 133) (rd := (fun e => readNniValueAs 255 e.value)) (f := (numRaw 133)) (o := p.facePersistency) (fun _ => rfl) (fun a ha => numA _ _ _ (h.facePersistency a ha) (by decide)), Option.bind_some,
      scan_skip (o := p.baseCongestionMarkingInterval) (u := 135) (fun _ => rfl) (by decide),
      scan_skip (o := p.defaultCongestionThreshold) (u := 136) (fun _ => rfl) (by decide),
      scan_other (o := p.mtu) (u := 137) (fun _ => rfl) (by decide)]
  · rw [scan_skip (o := p.name) (u := 7) (fun _ => rfl) (by decide),
      scan_skip (o := p.faceId) (u := 105) (fun _ => rfl) (by decide),
      scan_skip (o := p.uri) (u := 114) (fun _ => rfl) (by decide),
      scan_skip (o := p.localUri) (u := 129) (fun _ => rfl) (by decide),
      scan_skip (o := p.origin) (u := 111) (fun _ => rfl) (by decide),
      scan_skip (o := p.cost) (u := 106) (fun _ => rfl) (by decide),
      scan_skip (o := p.capacity) (u := 131) (fun _ => rfl) (by decide),
      scan_skip (o := p.count) (u := 132) (fun _ => rfl) (by decide),
      scan_skip (o := p.flags) (u := 108) (fun _ => rfl) (by decide),
      scan_skip (o := p.mask) (u := 112) (fun _ => rfl) (by decide),
      scan_skip (o := p.strategy) (u := 107) (fun _ => rfl) (by decide),
      scan_skip (o := p.expirationPeriod) (u := 109) (fun _ => rfl) (by decide),
      scan_skip (o := p.facePersistency) (u := 133) (fun _ => rfl) (by decide),
      scan_append, scan_own (t := 135) (rd := (fun e => (readNniValue e.value).map toI64)) (f := (durRaw 135)) (o := p.baseCongestionMarkingInterval) (fun _ => rfl) (fun a ha => dur _ _ (h.baseCongestionMarkingInterval a ha)), Option.bind_some,
      scan_skip (o := p.defaultCongestionThreshold) (u := 136) (fun _ => rfl) (by decide),
      scan_other (o := p.mtu) (u := 137) (fun _ => rfl) (by decide)]
  · rw [scan_skip (o := p.name) (u := 7) (fun _ => rfl) (by decide),
      scan_skip (o := p.faceId) (u := 105) (fun _ => rfl) (by decide),
      scan_skip (o := p.uri) (u := 114) (fun _ => rfl) (by decide),
      scan_skip (o := p.localUri) (u := 129) (fun _ => rfl) (by decide),
      scan_skip (o := p.origin) (u := 111) (fun _ => rfl) (by decide),
      scan_skip (o := p.cost) (u := 106) (fun _ => rfl) (by decide),
      scan_skip (o := p.capacity) (u := 131) (fun _ => rfl) (by decide),
      scan_skip (o := p.count) (u := 132) (fun _ => rfl) (by decide),
      scan_skip (o := p.flags) (u := 108) (fun _ => rfl) (by decide),
      scan_skip (o := p.mask) (u := 112) (fun _ => rfl) (by decide),
      scan_skip (o := p.strategy) (u := 107) (fun _ => rfl) (by decide),
      scan_skip (o := p.expirationPeriod) (u := 109) (fun _ => rfl) (by decide),
      scan_skip (o := p.facePersistency) (u := 133) (fun _ => rfl) (by decide),
      scan_skip (o := p.baseCongestionMarkingInterval) (u := 135) (fun _ => rfl) (by decide),
      scan_append, scan_own (t := 136) (rd := (fun e => readNniValue e.value)) (f := (numRaw 136)) (o := p.defaultCongestionThreshold) (fun _ => rfl) (fun a ha => num _ _ (h.defaultCongestionThreshold a ha)), Option.bind_some,
      scan_other (o := p.mtu) (u := 137) (fun _ => rfl) (by decide)]
  · rw [scan_skip (o := p.name) (u := 7) (fun _ => rfl) (by decide),
      scan_skip (o := p.faceId) (u := 105) (fun _ => rfl) (by decide),
      scan_skip (o := p.uri) (u := 114) (fun _ => rfl) (by decide),
      scan_skip (o := p.localUri) (u := 129) (fun _ => rfl) (by decide),
      scan_skip (o := p.origin) (u := 111) (fun _ => rfl) (by decide),
      scan_skip (o := p.cost) (u := 106) (fun _ => rfl) (by decide),
      scan_skip (o := p.capacity) (u := 131) (fun _ => rfl) (by decide),
      scan_skip (o := p.count) (u := 132) (fun _ => rfl) (by decide),
      scan_skip (o := p.flags) (u := 108) (fun _ => rfl) (by decide),
      scan_skip (o := p.mask) (u := 112) (fun _ => rfl) (by decide),
      scan_skip (o := p.strategy) (u := 107) (fun _ => rfl) (by decide),
      scan_skip (o := p.expirationPeriod) (u := 109) (fun _ => rfl) (by decide),
      scan_skip (o := p.facePersistency) (u := 133) (fun _ => rfl) (by decide),
      scan_skip (o := p.baseCongestionMarkingInterval) (u := 135) (fun _ => rfl) (by decide),
      scan_skip (o := p.defaultCongestionThreshold) (u := 136) (fun _ => rfl) (by decide),
      scan_own (t := 137) (rd := (fun e => readNniValue e.value)) (f := (numRaw 137)) (o := p.mtu) (fun _ => rfl) (fun a ha => num _ _ (h.mtu a ha))]

end Ndn.Mgmt
