import Verif.Interest.Spec
import Verif.Packet.DataLemmas
namespace Ndn.Interest
open Tlv Block Block.Spec Name Name.Spec Packet Packet.Spec Spec

/-! ### Digest components -/

theorem isParamsDigest_iff (c : Comp) : isParamsDigest c = true ↔ IsDigest c := by
  simp [isParamsDigest, IsDigest]

theorem digests_cons_pos {c : Comp} (h : IsDigest c) (cs : List Comp) : digests (c :: cs) = c :: digests cs := by
  simp [digests, h]

theorem digests_cons_neg {c : Comp} (h : ¬ IsDigest c) (cs : List Comp) : digests (c :: cs) = digests cs := by
  simp [digests, h]

theorem digests_append (a b : List Comp) : digests (a ++ b) = digests a ++ digests b := by
  simp [digests]

theorem findDigestLoop_found (cs : List Comp) (i : Nat) (pos : Int) (hp : 0 ≤ pos) :
    findDigestLoop i pos cs = if digests cs = [] then pos else -2 := by
  induction cs generalizing i with
  | nil => simp [findDigestLoop, digests]
  | cons c cs ih =>
    unfold findDigestLoop
    by_cases hc : IsDigest c
    · rw [if_pos ((isParamsDigest_iff c).mpr hc), if_pos (by omega), digests_cons_pos hc, if_neg (by simp)]
    · rw [if_neg (by rw [isParamsDigest_iff]; exact hc), ih, digests_cons_neg hc]

theorem findDigestLoop_spec (cs : List Comp) (i : Nat) :
    (digests cs = [] ∧ findDigestLoop i (-1) cs = -1) ∨
    (∃ a c b, cs = a ++ c :: b ∧ IsDigest c ∧ digests a = [] ∧ digests b = [] ∧
      findDigestLoop i (-1) cs = i + a.length) ∨
    (2 ≤ (digests cs).length ∧ findDigestLoop i (-1) cs = -2) := by
  induction cs generalizing i with
  | nil => left; simp [digests, findDigestLoop]
  | cons c cs ih =>
    unfold findDigestLoop
    by_cases hc : IsDigest c
    · rw [if_pos ((isParamsDigest_iff c).mpr hc), if_neg (by simp), findDigestLoop_found _ _ _ (by omega)]
      by_cases hd : digests cs = []
      · right; left
        refine ⟨[], c, cs, rfl, hc, rfl, hd, ?_⟩
        rw [if_pos hd]; simp
      · right; right
        rw [if_neg hd, digests_cons_pos hc]
        have := List.length_pos_iff.mpr hd
        simp; omega
    · rw [if_neg (by rw [isParamsDigest_iff]; exact hc)]
      rcases ih (i + 1) with ⟨h1, h2⟩ | ⟨a, d, b, h1, h2, h3, h4, h5⟩ | ⟨h1, h2⟩
      · left; rw [digests_cons_neg hc]; exact ⟨h1, h2⟩
      · right; left
        refine ⟨c :: a, d, b, by rw [h1]; rfl, h2, by rw [digests_cons_neg hc]; exact h3, h4, ?_⟩
        rw [h5]; simp; omega
      · right; right; rw [digests_cons_neg hc]; exact ⟨h1, h2⟩

theorem findDigest_spec (n : List Comp) :
    (digests n = [] ∧ findDigest n = -1) ∨
    (∃ a c b, n = a ++ c :: b ∧ IsDigest c ∧ digests a = [] ∧ digests b = [] ∧
      digests n = [c] ∧ findDigest n = a.length) ∨
    (2 ≤ (digests n).length ∧ findDigest n = -2) := by
  rcases findDigestLoop_spec n 0 with h | ⟨a, c, b, h1, h2, h3, h4, h5⟩ | h
  · exact Or.inl h
  · refine Or.inr (Or.inl ⟨a, c, b, h1, h2, h3, h4, ?_, ?_⟩)
    · rw [h1, digests_append, h3, digests_cons_pos h2, h4]; rfl
    · unfold findDigest; rw [h5]; simp
  · exact Or.inr (Or.inr h)

theorem findDigest_none {n : List Comp} : findDigest n = -1 ↔ digests n = [] := by
  rcases findDigest_spec n with ⟨h1, h2⟩ | ⟨a, c, b, h1, h2, h3, h4, h5, h6⟩ | ⟨h1, h2⟩
  · simp [h1, h2]
  · rw [h5, h6]; simp
  · rw [h2]
    constructor
    · intro h; simp at h
    · intro h; rw [h] at h1; simp at h1

theorem findDigest_many {n : List Comp} : findDigest n = -2 ↔ 2 ≤ (digests n).length := by
  rcases findDigest_spec n with ⟨h1, h2⟩ | ⟨a, c, b, h1, h2, h3, h4, h5, h6⟩ | ⟨h1, h2⟩
  · rw [h1, h2]; simp
  · rw [h5, h6]; simp
  · simp [h1, h2]

/-- The digest after `addOrReplace` is the current one, and the only one. -/
theorem digests_addOrReplace {H : Bytes → Bytes} (hH : ∀ x, (H x).length = 32) {n : List Comp} {ps : List Raw}
    (h : (digests n).length ≤ 1) :
    digests (addOrReplace H n ps) = [⟨2, paramsDigest H ps⟩] := by
  have hd : IsDigest ⟨2, paramsDigest H ps⟩ := ⟨rfl, hH _⟩
  unfold addOrReplace
  rcases findDigest_spec n with ⟨h1, h2⟩ | ⟨a, c, b, h1, h2, h3, h4, h5, h6⟩ | ⟨h1, h2⟩
  · simp only [h2, if_true]
    rw [digests_append, h1, digests_cons_pos hd]; rfl
  · simp only [h6]
    rw [if_neg (by omega), h1]
    simp only [Int.toNat_natCast]
    rw [List.set_append_right _ _ (by simp), digests_append, h3]
    simp only [Nat.sub_self, List.set_cons_zero, List.nil_append]
    rw [digests_cons_pos hd, h4]
  · omega

theorem digestValid_iff {H : Bytes → Bytes} {f : IFields} (h : (digests f.name).length ≤ 1) :
    f.digestValid H = true ↔ DigestOk H f.name f.params := by
  unfold IFields.digestValid DigestOk
  rcases findDigest_spec f.name with ⟨h1, h2⟩ | ⟨a, c, b, h1, h2, h3, h4, h5, h6⟩ | ⟨h1, h2⟩
  · simp only [h2, if_true, h1]
    simp
  · simp only [h6]
    rw [if_neg (by omega), h5]
    by_cases hp : f.params = []
    · simp [hp]
    · rw [if_neg hp]
      have hg : f.name[(↑a.length : Int).toNat]? = some c := by
        rw [h1]; simp
      rw [hg]
      obtain ⟨c1, c2⟩ := c
      simp only [IsDigest] at h2
      simp only [hp, paramsDigest, h2.1, List.cons.injEq, Comp.mk.injEq, true_and, and_true, ne_eq,
        not_false_eq_true, false_and, false_or]
      exact decide_eq_true_iff
  · omega

/-! ### ForwardingHint -/

theorem nameOf_iff {e : Raw} (ht : e.type = 7) {n : List Comp} : nameOf e = some n ↔ NameReads e n := by
  unfold nameOf NameReads
  rw [if_neg (by simp [ht])]
  constructor
  · intro h
    cases hp : parseElements e.value with
    | none => rw [hp] at h; simp at h
    | some cs =>
      rw [hp] at h
      simp only [Option.map_some, Option.some.injEq] at h
      exact ⟨ht, cs, parseElements_iff.mp hp, h.symm⟩
  · rintro ⟨_, cs, h1, rfl⟩
    rw [parseElements_iff.mpr h1]; rfl

theorem find_split {p : Raw → Bool} {es : List Raw} {m : Raw} :
    es.find? p = some m ↔ ∃ pre post, es = pre ++ m :: post ∧ (∀ x ∈ pre, p x = false) ∧ p m = true := by
  rw [List.find?_eq_some_iff_append]
  constructor
  · rintro ⟨h1, a, b, h2, h3⟩
    exact ⟨a, b, h2, fun x hx => by simpa using h3 x hx, h1⟩
  · rintro ⟨a, b, h1, h2, h3⟩
    exact ⟨h3, a, b, h1, fun x hx => by simp [h2 x hx]⟩

theorem hintElem_deleg {d : Raw} (hd : d.type = 7 ∨ d.type = 31) {r : Option (List Comp)} :
    hintElem d = some r ↔ ∃ n, r = some n ∧ Delegation d n := by
  unfold hintElem Delegation
  by_cases h7 : d.type = 7
  · rw [if_pos h7]
    simp only [Option.map_eq_some_iff]
    constructor
    · rintro ⟨n, h1, rfl⟩; exact ⟨n, rfl, Or.inl ((nameOf_iff h7).mp h1)⟩
    · rintro ⟨n, rfl, h | ⟨h, _⟩⟩
      · exact ⟨n, (nameOf_iff h7).mpr h, rfl⟩
      · omega
  · have h31 : d.type = 31 := by omega
    rw [if_neg h7, if_pos h31]
    constructor
    · intro h
      cases hp : parseElements d.value with
      | none => rw [hp] at h; simp at h
      | some es =>
        rw [hp] at h
        simp only at h
        cases hf : es.find? (fun e => e.type = 7) with
        | none => rw [hf] at h; simp at h
        | some m =>
          rw [hf] at h
          simp only [Option.map_eq_some_iff] at h
          obtain ⟨n, h1, rfl⟩ := h
          obtain ⟨pre, post, g1, g2, g3⟩ := find_split.mp hf
          refine ⟨n, rfl, Or.inr ⟨h31, es, pre, m, post, parseElements_iff.mp hp, g1, ?_, ?_⟩⟩
          · intro x hx; simpa using g2 x hx
          · exact (nameOf_iff (by simpa using g3)).mp h1
    · rintro ⟨n, rfl, h | ⟨_, es, pre, m, post, h1, h2, h3, h4⟩⟩
      · exact absurd h.1 h7
      · have hf : es.find? (fun e => decide (e.type = 7)) = some m :=
          find_split.mpr ⟨pre, post, h2, fun x hx => by simpa using h3 x hx, by simpa using h4.1⟩
        rw [parseElements_iff.mpr h1]
        simp only [hf]
        rw [(nameOf_iff h4.1).mpr h4]; rfl

theorem hintElem_other {d : Raw} (hd : ¬ (d.type = 7 ∨ d.type = 31)) {r : Option (List Comp)} :
    hintElem d = some r ↔ r = none ∧ Ignorable d := by
  unfold hintElem
  rw [if_neg (by omega), if_neg (by omega)]
  by_cases hc : isCriticalType d.type = true
  · rw [if_pos hc]
    rw [isCritical_iff] at hc
    simp [Ignorable]; intro _; omega
  · rw [if_neg hc]
    rw [isCritical_iff] at hc
    simp only [Ignorable, Option.some.injEq]
    constructor
    · rintro rfl; exact ⟨rfl, by omega⟩
    · rintro ⟨rfl, _⟩; rfl

theorem hintLoop_iff (ds : List Raw) (acc l : List (List Comp)) :
    hintLoop acc ds = (true, l) ↔ ∃ ns, l = acc ++ ns ∧ (∀ d ∈ ds, d.type = 7 ∨ d.type = 31 ∨ Ignorable d) ∧
      All2 Delegation (ds.filter (fun d => d.type = 7 ∨ d.type = 31)) ns := by
  induction ds generalizing acc with
  | nil =>
    simp only [hintLoop, Prod.mk.injEq, true_and, List.filter_nil]
    constructor
    · rintro rfl; exact ⟨[], by simp, by simp, .nil⟩
    · rintro ⟨ns, rfl, _, h⟩; cases h; simp
  | cons d ds ih =>
    have hcons : ∀ {ns : List (List Comp)}, (d.type = 7 ∨ d.type = 31) →
        (All2 Delegation ((d :: ds).filter (fun d => d.type = 7 ∨ d.type = 31)) ns ↔
          ∃ n ns', ns = n :: ns' ∧ Delegation d n ∧ All2 Delegation (ds.filter (fun d => d.type = 7 ∨ d.type = 31)) ns') := by
      intro ns hd
      rw [List.filter_cons_of_pos (by simpa using hd)]
      constructor
      · intro h; cases h with | cons h1 h2 => exact ⟨_, _, rfl, h1, h2⟩
      · rintro ⟨n, ns', rfl, h1, h2⟩; exact .cons h1 h2
    by_cases hd : d.type = 7 ∨ d.type = 31
    · unfold hintLoop
      cases he : hintElem d with
      | none =>
        simp only
        constructor
        · intro h; simp at h
        · rintro ⟨ns, _, _, h3⟩
          obtain ⟨n, ns', _, h4, _⟩ := (hcons hd).mp h3
          rw [(hintElem_deleg hd).mpr ⟨n, rfl, h4⟩] at he; simp at he
      | some r =>
        obtain ⟨n, rfl, hn⟩ := (hintElem_deleg hd).mp he
        simp only
        rw [ih]
        constructor
        · rintro ⟨ns, h1, h2, h3⟩
          refine ⟨n :: ns, by rw [h1]; simp, ?_, (hcons hd).mpr ⟨n, ns, rfl, hn, h3⟩⟩
          intro x hx
          rcases List.mem_cons.mp hx with rfl | hx
          · omega
          · exact h2 x hx
        · rintro ⟨ns, h1, h2, h3⟩
          obtain ⟨n', ns', rfl, h4, h5⟩ := (hcons hd).mp h3
          have := (hintElem_deleg hd).mpr ⟨n', rfl, h4⟩
          rw [he] at this
          simp only [Option.some.injEq] at this; subst this
          exact ⟨ns', by rw [h1]; simp, fun x hx => h2 x (by simp [hx]), h5⟩
    · unfold hintLoop
      rw [List.filter_cons_of_neg (by simpa using hd)]
      cases he : hintElem d with
      | none =>
        simp only
        constructor
        · intro h; simp at h
        · rintro ⟨ns, _, h2, _⟩
          have : Ignorable d := by
            rcases h2 d (by simp) with h | h | h
            · omega
            · omega
            · exact h
          rw [(hintElem_other hd).mpr ⟨rfl, this⟩] at he; simp at he
      | some r =>
        obtain ⟨rfl, hi⟩ := (hintElem_other hd).mp he
        simp only
        rw [ih]
        constructor
        · rintro ⟨ns, h1, h2, h3⟩
          refine ⟨ns, h1, ?_, h3⟩
          intro x hx
          rcases List.mem_cons.mp hx with rfl | hx
          · exact Or.inr (Or.inr hi)
          · exact h2 x hx
        · rintro ⟨ns, h1, h2, h3⟩
          exact ⟨ns, h1, fun x hx => h2 x (by simp [hx]), h3⟩

theorem hintDecode_iff (e : Raw) (l : List (List Comp)) : hintDecode [] e = (true, l) ↔ HintReads e l := by
  unfold hintDecode HintReads
  cases hp : parseElements e.value with
  | none =>
    simp only
    constructor
    · intro h; simp at h
    · rintro ⟨ds, h, _⟩
      rw [parseElements_iff.mpr h] at hp; simp at hp
  | some ds =>
    simp only
    rw [hintLoop_iff]
    constructor
    · rintro ⟨ns, h1, h2, h3⟩
      simp at h1; subst h1
      exact ⟨ds, parseElements_iff.mp hp, h2, h3⟩
    · rintro ⟨ds', h1, h2, h3⟩
      have := parseElements_iff.mpr h1
      rw [hp] at this; simp at this; subst this
      exact ⟨l, by simp, h2, h3⟩

end Ndn.Interest
