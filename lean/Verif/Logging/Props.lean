import Verif.Logging.Spec
/-
Properties C106 (which level a logger has) and C107 (texts that configure the levels).
-/
namespace Ndn.Logging
open Ndn Ndn.Logging.Spec

/-! ### The table -/

theorem lookup_filter (k : Bytes) (f : Bytes → Bool) (t : Table) :
    lookup k (t.filter (fun e => f e.1)) = if f k then lookup k t else none := by
  induction t with
  | nil => simp [lookup]
  | cons e t ih =>
    obtain ⟨k', l⟩ := e
    by_cases hf : f k' = true
    · rw [List.filter_cons_of_pos (by simpa using hf)]
      simp only [lookup, ih]
      by_cases hk : k' = k
      · subst hk; simp [hf]
      · simp [hk]
    · rw [List.filter_cons_of_neg (by simpa using hf), ih]
      by_cases hk : k' = k
      · subst hk; simp [hf]
      · simp [lookup, hk]

theorem lookup_store (k k' : Bytes) (l : Level) (t : Table) :
    lookup k' (store k l t) = if k' = k then some l else lookup k' t := by
  unfold store
  simp only [lookup]
  by_cases h : k = k'
  · rw [if_pos h, if_pos h.symm]
  · rw [if_neg h, if_neg (fun e => h e.symm)]
    have := lookup_filter k' (fun x => decide (x ≠ k)) t
    rw [this, if_pos (by simpa using fun e => h e.symm)]

/-! ### The loop -/

theorem lastDot_none {s : Bytes} (h : lastDot s = none) : (46 : UInt8) ∉ s := by
  induction s with
  | nil => simp
  | cons c s ih =>
    simp only [lastDot] at h
    cases hd : lastDot s with
    | some i => rw [hd] at h; simp at h
    | none =>
      rw [hd] at h
      dsimp only at h
      split at h
      · simp at h
      · rename_i hc
        simp only [List.mem_cons, not_or]
        exact ⟨fun e => hc e.symm, ih hd⟩

theorem lastDot_some {s : Bytes} {i : Nat} (h : lastDot s = some i) :
    ∃ a b, s = a ++ 46 :: b ∧ a.length = i ∧ (46 : UInt8) ∉ b := by
  induction s generalizing i with
  | nil => simp [lastDot] at h
  | cons c s ih =>
    simp only [lastDot] at h
    cases hd : lastDot s with
    | some j =>
      rw [hd] at h
      simp only [Option.some.injEq] at h
      obtain ⟨a, b, h1, h2, h3⟩ := ih hd
      exact ⟨c :: a, b, by simp [h1], by simp [h2, h], h3⟩
    | none =>
      rw [hd] at h
      dsimp only at h
      split at h
      · rename_i hc
        simp only [Option.some.injEq] at h
        exact ⟨[], s, by simp [hc], by simpa using h, lastDot_none hd⟩
      · simp at h

/-- The keys that are looked for: the name, what ends in a dot, and nothing. -/
def Cand (n c : Bytes) : Prop := c = n ∨ c = [] ∨ (c <+: n ∧ c.getLast? = some 46)

theorem cand_prefix {n c : Bytes} (h : Cand n c) : c <+: n := by
  rcases h with rfl | rfl | h
  · exact List.prefix_refl _
  · exact List.nil_prefix
  · exact h.1

/-- A prefix that ends in a dot cannot be longer than the last dot. -/
theorem dot_prefix {a b c : Bytes} (hb : (46 : UInt8) ∉ b) (h : c <+: a ++ 46 :: b) (hd : c.getLast? = some 46) :
    c.length ≤ a.length + 1 := by
  obtain ⟨r, hr⟩ := h
  obtain ⟨c', rfl⟩ : ∃ c', c = c' ++ [46] := by
    have := List.getLast?_eq_some_iff.1 hd
    exact this
  apply Classical.byContradiction
  intro hlt
  simp only [List.length_append, List.length_singleton] at hlt
  have h1 : (a ++ 46 :: b)[c'.length]? = some 46 := by
    rw [← hr]; simp
  rw [List.getElem?_append_right (by omega)] at h1
  have h2 : c'.length - a.length = (c'.length - a.length - 1) + 1 := by omega
  rw [h2, List.getElem?_cons_succ] at h1
  exact hb (List.mem_of_getElem? h1)

theorem findLoop_spec (t : Table) (n : Bytes) (fuel : Nat) (mn : Bytes) (hc : Cand n mn) (hf : mn.length < fuel)
    (hup : ∀ c, Cand n c → mn.length < c.length → lookup c t = none) :
    (∃ c l, Cand n c ∧ lookup c t = some l ∧ (∀ c', Cand n c' → c.length < c'.length → lookup c' t = none) ∧ findLoop t fuel mn = l) ∨
    ((∀ c, Cand n c → lookup c t = none) ∧ findLoop t fuel mn = .none) := by
  induction fuel generalizing mn with
  | zero => omega
  | succ fuel ih =>
    have same : ∀ c, Cand n c → c.length = mn.length → c = mn := by
      intro c h1 h2
      have p1 := cand_prefix h1
      have p2 := cand_prefix hc
      exact List.IsPrefix.eq_of_length (List.prefix_of_prefix_length_le p1 p2 (by omega)) h2
    simp only [findLoop]
    by_cases he : mn = []
    · subst he
      simp only [List.isEmpty_nil, if_true]
      cases hl : lookup [] t with
      | some l => exact .inl ⟨[], l, hc, hl, hup, rfl⟩
      | none =>
        refine .inr ⟨fun c h => ?_, rfl⟩
        by_cases h0 : c.length = 0
        · rw [List.length_eq_zero_iff.1 h0]; exact hl
        · exact hup c h (by simp; omega)
    · have hie : mn.isEmpty = false := by cases mn <;> simp_all
      simp only [hie, Bool.false_eq_true, if_false]
      have hpos : 0 < mn.length := List.length_pos_iff.2 he
      cases hl : lookup mn t with
      | some l => exact .inl ⟨mn, l, hc, hl, hup, rfl⟩
      | none =>
        dsimp only
        have hup' : ∀ c, Cand n c → mn.length ≤ c.length → lookup c t = none := by
          intro c h1 h2
          by_cases h3 : c.length = mn.length
          · rw [same c h1 h3]; exact hl
          · exact hup c h1 (by omega)
        -- candidates below `mn` are prefixes of it that end in a dot, or empty
        have below : ∀ c, Cand n c → c.length < mn.length → c = [] ∨ (c <+: mn ∧ c.getLast? = some 46) := by
          intro c h1 h2
          have p := List.prefix_of_prefix_length_le (cand_prefix h1) (cand_prefix hc) (by omega)
          rcases h1 with rfl | h1 | h1
          · have := (cand_prefix hc).length_le; omega
          · exact .inl h1
          · exact .inr ⟨p, h1.2⟩
        have toNil : (46 : UInt8) ∉ mn.dropLast → ∀ c, Cand n c → ([] : Bytes).length < c.length → lookup c t = none := by
          intro hn c h1 h2
          by_cases h3 : mn.length ≤ c.length
          · exact hup' c h1 h3
          · rcases below c h1 (by omega) with rfl | ⟨⟨r, hr⟩, hd⟩
            · simp at h2
            · exfalso
              obtain ⟨c', rfl⟩ := List.getLast?_eq_some_iff.1 hd
              have hrne : r ≠ [] := by
                rintro rfl
                rw [List.append_nil] at hr
                rw [← hr] at h3
                exact h3 (Nat.le_refl _)
              apply hn
              rw [← hr, List.dropLast_append_of_ne_nil hrne]
              simp
        cases hd : lastDot mn with
        | none =>
          dsimp only
          have hn := lastDot_none hd
          exact ih [] (.inr (.inl rfl)) (by simp; omega) (toNil (fun h => hn (List.dropLast_subset _ h)))
        | some pos =>
          dsimp only
          obtain ⟨a, b, h1, h2, h3⟩ := lastDot_some hd
          by_cases hp : pos < mn.length - 1
          · rw [if_pos hp]
            have htake : mn.take (pos + 1) = a ++ [46] := by
              rw [h1, ← h2, show a ++ 46 :: b = (a ++ [46]) ++ b by simp, List.take_append_of_le_length (by simp)]
              exact List.take_of_length_le (by simp)
            rw [htake]
            have hpre : a ++ [46] <+: mn := ⟨b, by rw [h1]; simp⟩
            refine ih _ (.inr (.inr ⟨hpre.trans (cand_prefix hc), by simp⟩)) ?_ ?_
            · simp; omega
            · intro c c1 c2
              by_cases c3 : mn.length ≤ c.length
              · exact hup' c c1 c3
              · rcases below c c1 (by omega) with rfl | ⟨c4, c5⟩
                · simp at c2
                · rw [h1] at c4
                  have := dot_prefix h3 c4 c5
                  simp at c2
                  omega
          · rw [if_neg hp]
            have hb : b = [] := by
              have := congrArg List.length h1
              simp at this
              exact List.length_eq_zero_iff.1 (by omega)
            subst hb
            have hdl : mn.dropLast = a := by rw [h1]; simp
            rw [hdl]
            cases hd2 : lastDot a with
            | none =>
              exact ih [] (.inr (.inl rfl)) (by simp; omega) (toNil (by rw [hdl]; exact lastDot_none hd2))
            | some p =>
              dsimp only
              obtain ⟨a2, b2, g1, g2, g3⟩ := lastDot_some hd2
              have htake : a.take (p + 1) = a2 ++ [46] := by
                rw [g1, ← g2, show a2 ++ 46 :: b2 = (a2 ++ [46]) ++ b2 by simp, List.take_append_of_le_length (by simp)]
                exact List.take_of_length_le (by simp)
              rw [htake]
              have hpre : a2 ++ [46] <+: mn := ⟨b2 ++ [46], by rw [h1, g1]; simp⟩
              have hlen := congrArg List.length h1
              have hlen2 := congrArg List.length g1
              simp at hlen hlen2
              refine ih _ (.inr (.inr ⟨hpre.trans (cand_prefix hc), by simp⟩)) ?_ ?_
              · simp; omega
              · intro c c1 c2
                by_cases c3 : mn.length ≤ c.length
                · exact hup' c c1 c3
                · rcases below c c1 (by omega) with rfl | ⟨c4, c5⟩
                  · simp at c2
                  · have c6 : c <+: a := List.prefix_of_prefix_length_le c4 ⟨[46], h1.symm⟩ (by omega)
                    rw [g1] at c6
                    have := dot_prefix g3 c6 c5
                    simp at c2
                    omega

/-- What `findLevel` finds: the longest key of the table among the candidates. -/
theorem findLevel_spec (t : Table) (n : Bytes) :
    (∃ c l, Cand n c ∧ lookup c t = some l ∧ (∀ c', Cand n c' → c.length < c'.length → lookup c' t = none) ∧ findLevel t n = l) ∨
    ((∀ c, Cand n c → lookup c t = none) ∧ findLevel t n = .none) :=
  findLoop_spec t n _ n (.inl rfl) (by omega) (fun c h1 h2 => by
    have := (cand_prefix h1).length_le; omega)

theorem findLevel_hit {t : Table} {n c : Bytes} {l : Level} (h1 : Cand n c) (h2 : lookup c t = some l)
    (h3 : ∀ c', Cand n c' → c.length < c'.length → lookup c' t = none) : findLevel t n = l := by
  rcases findLevel_spec t n with ⟨c', l', g1, g2, g3, g4⟩ | ⟨g1, -⟩
  · have : c' = c := by
      have e : c'.length = c.length := by
        rcases Nat.lt_trichotomy c'.length c.length with h | h | h
        · rw [g3 c h1 h] at h2; simp at h2
        · exact h
        · rw [h3 c' g1 h] at g2; simp at g2
      exact List.IsPrefix.eq_of_length (List.prefix_of_prefix_length_le (cand_prefix g1) (cand_prefix h1) (by omega)) e
    subst this
    rw [h2] at g2
    injection g2 with g2
    rw [g4, g2]
  · rw [g1 c h1] at h2; simp at h2

theorem findLevel_congr {t t' : Table} {n : Bytes} (h : ∀ c, Cand n c → lookup c t' = lookup c t) : findLevel t' n = findLevel t n := by
  rcases findLevel_spec t n with ⟨c, l, g1, g2, g3, g4⟩ | ⟨g1, g2⟩
  · rw [g4]
    exact findLevel_hit g1 (by rw [h c g1, g2]) (fun c' a b => by rw [h c' a]; exact g3 c' a b)
  · rw [g2]
    rcases findLevel_spec t' n with ⟨c, l, k1, k2, -, -⟩ | ⟨-, k2⟩
    · rw [h c k1, g1 c k1] at k2; simp at k2
    · exact k2

/-! ### Rules -/

theorem wanted_snoc (n : Bytes) (rs : List Rule) (pat : Bytes) (l : Level) :
    (Matches pat n → Wanted n (rs ++ [(pat, l)]) = l) ∧ (¬ Matches pat n → Wanted n (rs ++ [(pat, l)]) = Wanted n rs) := by
  unfold Wanted
  constructor
  · intro h; simp [h]
  · intro h; simp [h]

theorem valid_last {n : Bytes} (h : validName n = true) : n ≠ [] ∧ n.getLast? ≠ some 46 ∧ n.getLast? ≠ some 42 := by
  unfold validName at h
  split at h
  · simp at h
  · rename_i hn
    simp only [Bool.or_eq_true, beq_iff_eq, not_or] at hn
    refine ⟨fun e => hn.1.1.1 (by simp [e]), hn.1.2, fun e => ?_⟩
    have hm : (42 : UInt8) ∈ n := List.mem_of_getLast? e
    have := List.all_eq_true.1 h 42 hm
    revert this
    decide

/-- The effect of one rule on a logger that exists. -/
theorem matches_iff (pat n : Bytes) :
    Matches pat n ↔
      (if pat.isEmpty || pat.getLast? == some 42 then (if pat.isEmpty then pat else pat.dropLast).isPrefixOf n = true else n = pat) := by
  unfold Matches
  by_cases he : pat = []
  · subst he; simp
  · have hie : pat.isEmpty = false := by cases pat <;> simp_all
    by_cases hs : pat.getLast? = some 42
    · obtain ⟨p, rfl⟩ := List.getLast?_eq_some_iff.1 hs
      simp only [hie, hs, beq_self_eq_true, Bool.or_true, if_true, Bool.false_eq_true, if_false, List.isPrefixOf_iff_prefix]
      simp
    · simp only [hie, hs, Bool.false_or, beq_iff_eq, if_false]
      constructor
      · rintro (h | ⟨h, -⟩ | ⟨p, rfl, -⟩)
        · exact absurd h he
        · exact h.symm
        · simp at hs
      · intro h; exact .inr (.inl ⟨h.symm, hs⟩)

theorem setLevel_loggers (s : St) (pat : Bytes) (l : Level) (i : Nat) (n : Bytes) (g : Level) :
    (s.setLevel pat l).loggers[i]? = some (n, g) ↔
      ∃ g', s.loggers[i]? = some (n, g') ∧ (Matches pat n → g = l) ∧ (¬ Matches pat n → g = g') := by
  rw [matches_iff]
  unfold St.setLevel
  generalize hp0 : (if pat.isEmpty then pat else pat.dropLast) = p0
  split
  · simp only [List.getElem?_map, Option.map_eq_some_iff]
    constructor
    · rintro ⟨⟨n', g'⟩, h1, h2⟩
      split at h2
      · rename_i hp
        simp only [Prod.mk.injEq] at h2
        obtain ⟨rfl, rfl⟩ := h2
        exact ⟨g', h1, fun _ => rfl, fun h => absurd hp h⟩
      · rename_i hp
        simp only [Prod.mk.injEq] at h2
        obtain ⟨rfl, rfl⟩ := h2
        exact ⟨g', h1, fun h => absurd h hp, fun _ => rfl⟩
    · rintro ⟨g', h1, h2, h3⟩
      refine ⟨(n, g'), h1, ?_⟩
      split
      · rename_i hp; rw [h2 hp]
      · rename_i hp; rw [h3 hp]
  · simp only [List.getElem?_map, Option.map_eq_some_iff]
    constructor
    · rintro ⟨⟨n', g'⟩, h1, h2⟩
      split at h2
      · rename_i hp
        simp only [Prod.mk.injEq] at h2
        obtain ⟨rfl, rfl⟩ := h2
        exact ⟨g', h1, fun _ => rfl, fun h => absurd hp h⟩
      · rename_i hp
        simp only [Prod.mk.injEq] at h2
        obtain ⟨rfl, rfl⟩ := h2
        exact ⟨g', h1, fun h => absurd h hp, fun _ => rfl⟩
    · rintro ⟨g', h1, h2, h3⟩
      refine ⟨(n, g'), h1, ?_⟩
      split
      · rename_i hp; rw [h2 hp]
      · rename_i hp; rw [h3 hp]

/-- The table and the rules agree for every name a logger can have. -/
def Agree (t : Table) (rs : List Rule) : Prop := ∀ n, validName n = true → findLevel t n = Wanted n rs

theorem setLevel_agree {s : St} {rs : List Rule} (h : Agree s.table rs) (pat : Bytes) (l : Level) (hd : Documented pat) :
    Agree (s.setLevel pat l).table (rs ++ [(pat, l)]) := by
  intro n hn
  obtain ⟨v1, v2, v3⟩ := valid_last hn
  obtain ⟨w1, w2⟩ := wanted_snoc n rs pat l
  by_cases hs : (pat.isEmpty || pat.getLast? == some 42) = true
  · -- a prefix
    generalize hp : (if pat.isEmpty then pat else pat.dropLast) = p
    have ht : (s.setLevel pat l).table = store p l (s.table.filter (fun e => !p.isPrefixOf e.1)) := by
      unfold St.setLevel; rw [if_pos hs, hp]
    have hm : Matches pat n ↔ p <+: n := by
      rw [matches_iff, if_pos hs, hp, List.isPrefixOf_iff_prefix]
    have hpd : p = [] ∨ p.getLast? = some 46 := by
      rcases hd with rfl | rfl | ⟨q, rfl⟩ | ⟨h1, h2⟩
      · left; rw [← hp]; rfl
      · left; rw [← hp]; rfl
      · right
        have e : (q ++ [46, 42]).isEmpty = false := by simp
        rw [← hp, e]
        have : (q ++ [46, 42]).dropLast = q ++ [46] := by
          rw [show q ++ [46, 42] = (q ++ [46]) ++ [42] by simp]; simp
        simp [this]
      · simp only [Bool.or_eq_true, beq_iff_eq] at hs
        rcases hs with hs | hs
        · left; rw [← hp, hs]; simp at hs; simp [hs]
        · exact absurd hs h1
    have hlk : ∀ c, lookup c (store p l (s.table.filter (fun e => !p.isPrefixOf e.1))) =
        if c = p then some l else if p <+: c then none else lookup c s.table := by
      intro c
      rw [lookup_store]
      by_cases hc : c = p
      · rw [if_pos hc, if_pos hc]
      · rw [if_neg hc, if_neg hc, lookup_filter c (fun x => !p.isPrefixOf x)]
        by_cases hpc : p <+: c
        · rw [if_pos hpc, if_neg (by simpa using List.isPrefixOf_iff_prefix.2 hpc)]
        · rw [if_neg hpc, if_pos (by
            simp only [Bool.not_eq_true', ← Bool.not_eq_true, List.isPrefixOf_iff_prefix]; exact hpc)]
    rw [ht]
    by_cases hpn : p <+: n
    · rw [w1 (hm.2 hpn)]
      refine findLevel_hit (c := p) ?_ (by rw [hlk, if_pos rfl]) ?_
      · rcases hpd with h | h
        · exact .inr (.inl h)
        · exact .inr (.inr ⟨hpn, h⟩)
      · intro c' c1 c2
        rw [hlk, if_neg (by rintro rfl; omega), if_pos]
        exact List.prefix_of_prefix_length_le hpn (cand_prefix c1) (by omega)
    · rw [w2 (fun h => hpn (hm.1 h)), ← h n hn]
      refine findLevel_congr (fun c hc => ?_)
      have hpc : ¬ p <+: c := fun h => hpn (h.trans (cand_prefix hc))
      rw [hlk, if_neg (by rintro rfl; exact hpc (List.prefix_refl _)), if_neg hpc]
  · -- one name
    have ht : (s.setLevel pat l).table = store pat l s.table := by unfold St.setLevel; rw [if_neg hs]
    have hm : Matches pat n ↔ n = pat := by rw [matches_iff, if_neg hs]
    simp only [Bool.or_eq_true, List.isEmpty_iff, beq_iff_eq, not_or] at hs
    have hdot : pat.getLast? ≠ some 46 := by
      rcases hd with rfl | rfl | ⟨q, rfl⟩ | ⟨h1, h2⟩
      · simp at hs
      · simp at hs
      · simp at hs
      · exact h2
    rw [ht]
    by_cases hnp : n = pat
    · rw [w1 (hm.2 hnp)]
      subst hnp
      refine findLevel_hit (c := n) (.inl rfl) (by rw [lookup_store, if_pos rfl]) ?_
      intro c' c1 c2
      have := (cand_prefix c1).length_le
      omega
    · rw [w2 (fun h => hnp (hm.1 h)), ← h n hn]
      refine findLevel_congr (fun c hc => ?_)
      rw [lookup_store, if_neg]
      rintro rfl
      rcases hc with h1 | h1 | h1
      · exact hnp h1.symm
      · exact hs.1 h1
      · exact hdot h1.2

/-! ### Texts -/

theorem pieces_piece (cur p rest : Bytes) (h : (58 : UInt8) ∉ p) : pieces cur (p ++ 58 :: rest) = (cur ++ p) :: pieces [] rest := by
  induction p generalizing cur with
  | nil => simp [pieces]
  | cons c p ih =>
    simp only [List.mem_cons, not_or] at h
    simp only [List.cons_append, pieces]
    rw [if_neg (fun e => h.1 e.symm), ih _ h.2]
    simp

theorem pieces_end (cur p : Bytes) (h : (58 : UInt8) ∉ p) : pieces cur p = if cur ++ p = [] then [] else [cur ++ p] := by
  induction p generalizing cur with
  | nil => simp [pieces]
  | cons c p ih =>
    simp only [List.mem_cons, not_or] at h
    simp only [pieces]
    rw [if_neg (fun e => h.1 e.symm), ih _ h.2]
    simp

theorem intercalate_cons (a b : Bytes) (ps : List Bytes) : [58].intercalate (a :: b :: ps) = a ++ 58 :: [58].intercalate (b :: ps) := by
  simp [List.intercalate, List.intersperse]

theorem pieces_of_splits {text : Bytes} {ps : List Bytes} (h : Splits text ps) : pieces [] text = ps := by
  obtain ⟨h1, h2⟩ := h
  rcases h2 with ⟨rfl, h2⟩ | ⟨rfl, h2⟩
  · induction ps with
    | nil => rfl
    | cons p ps ih =>
      cases ps with
      | nil =>
        have : [58].intercalate [p] = p := by simp [List.intercalate]
        rw [this, pieces_end _ _ (h1 p (by simp))]
        simp at h2
        simp [h2]
      | cons q ps =>
        rw [intercalate_cons, pieces_piece _ _ _ (h1 p (by simp)), ih (fun x hx => h1 x (List.mem_cons_of_mem _ hx)) (by simpa using h2)]
        rfl
  · induction ps with
    | nil => simp at h2
    | cons p ps ih =>
      cases ps with
      | nil =>
        have : [58].intercalate [p] = p := by simp [List.intercalate]
        rw [this, pieces_piece _ _ _ (h1 p (by simp))]
        rfl
      | cons q ps =>
        rw [intercalate_cons, List.append_assoc, List.cons_append, pieces_piece _ _ _ (h1 p (by simp)),
          ih (fun x hx => h1 x (List.mem_cons_of_mem _ hx)) (by simp)]
        rfl

theorem splits_pieces (text : Bytes) : Splits text (pieces [] text) := by
  by_cases h : (58 : UInt8) ∈ text
  · obtain ⟨p, rest, rfl, hp⟩ := List.eq_append_cons_of_mem h
    rw [pieces_piece _ _ _ hp]
    have ih := splits_pieces rest
    rw [List.nil_append]
    have hmem : ∀ x ∈ p :: pieces [] rest, (58 : UInt8) ∉ x := by
      intro x hx
      rcases List.mem_cons.1 hx with rfl | hx
      · exact hp
      · exact ih.1 x hx
    refine ⟨hmem, ?_⟩
    cases hq : pieces [] rest with
    | nil =>
      right
      rw [hq] at ih
      rcases ih.2 with ⟨h1, -⟩ | ⟨-, h2⟩
      · refine ⟨?_, by simp⟩
        rw [h1]
        simp [List.intercalate]
      · exact absurd rfl h2
    | cons q qs =>
      rw [hq] at ih
      rw [intercalate_cons]
      rcases ih.2 with ⟨h1, h2⟩ | ⟨h1, h2⟩
      · left; exact ⟨by rw [← h1], by simpa using h2⟩
      · right; exact ⟨by rw [h1]; simp, by simp⟩
  · rw [pieces_end _ _ h]
    by_cases he : text = []
    · subst he
      exact ⟨by simp, .inl ⟨rfl, by simp⟩⟩
    · rw [List.nil_append, if_neg he]
      exact ⟨by simpa using h, .inl ⟨by simp [List.intercalate], by simpa using he⟩⟩
termination_by text.length
decreasing_by all_goals (subst_vars; simp +arith)

theorem splits_iff (text : Bytes) (ps : List Bytes) : Splits text ps ↔ pieces [] text = ps :=
  ⟨pieces_of_splits, fun h => h ▸ splits_pieces text⟩

theorem parseLevel_iff (s : Bytes) (l : Level) : parseLevel s = some l ↔ s = l.text := by
  constructor
  · intro h
    unfold parseLevel at h
    repeat' split at h
    all_goals first | (injection h with h; subst h; assumption) | cases h
  · rintro rfl
    cases l <;> rfl

theorem parsePiece_iff (p pat : Bytes) (l : Level) :
    parsePiece p = some (pat, l) ↔ (61 : UInt8) ∉ pat ∧ p = pat ++ [61] ++ l.text := by
  unfold parsePiece
  constructor
  · intro h
    split at h
    · cases h
    · rename_i i hi
      split at h
      · cases h
      · rename_i l' hl
        simp only [Option.some.injEq, Prod.mk.injEq] at h
        obtain ⟨rfl, rfl⟩ := h
        rw [parseLevel_iff] at hl
        obtain ⟨hlt, h1, h2⟩ := List.findIdx?_eq_some_iff_getElem.1 hi
        refine ⟨?_, ?_⟩
        · intro hm
          obtain ⟨j, hj, hx⟩ := List.mem_iff_getElem.1 hm
          rw [List.length_take] at hj
          rw [List.getElem_take] at hx
          exact h2 j (by omega) (by simp [hx])
        · rw [← hl]
          have e : p[i] = 61 := by simpa using h1
          rw [List.append_assoc, ← e]
          simp
  · rintro ⟨h1, rfl⟩
    have hi : (pat ++ [61] ++ l.text).findIdx? (· == 61) = some pat.length := by
      rw [List.findIdx?_eq_some_iff_getElem]
      refine ⟨by simp, by simp, ?_⟩
      intro j hj
      have hj' : j < pat.length := hj
      have : (pat ++ [61] ++ l.text)[j]'(by simp; omega) = pat[j] := by
        rw [List.getElem_append_left (by simp; omega), List.getElem_append_left hj']
      rw [this]
      intro e
      exact h1 (by rw [← (beq_iff_eq.1 e)]; exact List.getElem_mem _)
    rw [hi]
    dsimp only
    have hd : (pat ++ [61] ++ l.text).drop (pat.length + 1) = l.text := by
      rw [List.drop_append_of_le_length (by simp)]
      simp
    have ht : (pat ++ [61] ++ l.text).take pat.length = pat := by
      rw [List.append_assoc, List.take_append_of_le_length (by simp)]
      simp
    rw [hd, (parseLevel_iff _ _).2 rfl, ht]

theorem setPieces_iff (ps : List Bytes) (s s' : St) :
    setPieces s ps = (true, s') ↔ ∃ rs, Pairs ps rs ∧ s' = rs.foldl (fun s r => s.setLevel r.1 r.2) s := by
  induction ps generalizing s with
  | nil =>
    simp only [setPieces, Prod.mk.injEq, true_and, Pairs]
    constructor
    · rintro rfl; exact ⟨[], ⟨rfl, by simp⟩, rfl⟩
    · rintro ⟨rs, ⟨h, -⟩, rfl⟩
      have : rs = [] := by cases rs <;> simp_all
      subst this; rfl
  | cons p ps ih =>
    simp only [setPieces]
    cases hp : parsePiece p with
    | none =>
      simp only [Prod.mk.injEq, Bool.false_eq_true, false_and, false_iff]
      rintro ⟨rs, ⟨h1, h2⟩, -⟩
      cases rs with
      | nil => simp at h1
      | cons r rs =>
        simp only [List.map_cons, List.cons.injEq] at h1
        rw [(parsePiece_iff p r.1 r.2).2 ⟨h2 r (by simp), h1.1⟩] at hp
        cases hp
    | some r =>
      obtain ⟨pat, l⟩ := r
      dsimp only
      rw [ih]
      obtain ⟨g1, g2⟩ := (parsePiece_iff p pat l).1 hp
      constructor
      · rintro ⟨rs, ⟨h1, h2⟩, rfl⟩
        refine ⟨(pat, l) :: rs, ⟨?_, ?_⟩, rfl⟩
        · rw [List.map_cons, ← h1, g2]
        · intro r hr
          rcases List.mem_cons.1 hr with rfl | hr
          · exact g1
          · exact h2 r hr
      · rintro ⟨rs, ⟨h1, h2⟩, rfl⟩
        cases rs with
        | nil => simp at h1
        | cons r rs =>
          simp only [List.map_cons, List.cons.injEq] at h1
          have := (parsePiece_iff p r.1 r.2).2 ⟨h2 r (by simp), h1.1⟩
          rw [hp] at this
          simp only [Option.some.injEq] at this
          have e : r = (pat, l) := this.symm
          subst e
          exact ⟨rs, ⟨h1.2, fun r hr => h2 r (List.mem_cons_of_mem _ hr)⟩, rfl⟩

/-! ### C107: texts -/

/-- The names of the levels are read back. -/
theorem C107_levels (s : Bytes) (l : Level) : parseLevel s = some l ↔ s = l.text := parseLevel_iff s l

/-- A text is accepted exactly if it consists of pairs separated by colons, and then it is equivalent to giving these rules
one after the other. -/
theorem C107_config (s s' : St) (text : Bytes) :
    s.config text = (true, s') ↔ ∃ ps rs, Splits text ps ∧ Pairs ps rs ∧ s' = rs.foldl (fun s r => (s.step (.set r.1 r.2)).2) s := by
  unfold St.config
  rw [setPieces_iff]
  constructor
  · rintro ⟨rs, h1, h2⟩; exact ⟨_, rs, splits_pieces text, h1, h2⟩
  · rintro ⟨ps, rs, h0, h1, h2⟩; rw [(splits_iff _ _).1 h0]; exact ⟨rs, h1, h2⟩

theorem text_inj {a b : Level} (h : a.text = b.text) : a = b := by
  cases a <;> cases b <;> first | rfl | cases h

/-- A text has one meaning. -/
theorem C107_unique {text : Bytes} {ps ps' : List Bytes} {rs rs' : List Rule} (h1 : Splits text ps) (h2 : Splits text ps')
    (h3 : Pairs ps rs) (h4 : Pairs ps' rs') : ps = ps' ∧ rs = rs' := by
  have e : ps = ps' := by rw [← (splits_iff _ _).1 h1, (splits_iff _ _).1 h2]
  subst e
  refine ⟨rfl, ?_⟩
  obtain ⟨rfl, a2⟩ := h3
  obtain ⟨b1, b2⟩ := h4
  clear h1 h2
  induction rs generalizing rs' with
  | nil => cases rs' <;> simp_all
  | cons r rs ih =>
    cases rs' with
    | nil => simp at b1
    | cons r' rs' =>
      simp only [List.map_cons, List.cons.injEq] at b1
      have e1 := (parsePiece_iff _ r.1 r.2).2 ⟨a2 r (by simp), rfl⟩
      have e2 := (parsePiece_iff _ r'.1 r'.2).2 ⟨b2 r' (by simp), b1.1⟩
      rw [e1] at e2
      simp only [Option.some.injEq] at e2
      rw [show r = r' from e2]
      congr 1
      exact ih (fun r hr => a2 r (List.mem_cons_of_mem _ hr)) b1.2 (fun r hr => b2 r (List.mem_cons_of_mem _ hr))

/-- The full claim: a text that is refused changes nothing. -/
def C107_refused_claim : Prop := ∀ (s s' : St) (text : Bytes), s.config text = (false, s') → s' = s

/-- The pairs before the first one that is malformed take effect: `*=INFO:x`. -/
theorem C107_refused_counterexample : ¬ C107_refused_claim := by
  intro h
  have := h {} _ [42, 61, 73, 78, 70, 79, 58, 120] rfl
  exact absurd (congrArg (fun s => s.table) this) (by decide)

theorem setPieces_false (ps : List Bytes) (s s' : St) (h : setPieces s ps = (false, s')) :
    ∃ a p b rs, ps = a ++ p :: b ∧ Pairs a rs ∧ (∀ r : Rule, ¬ Pairs [p] [r]) ∧ s' = rs.foldl (fun s r => s.setLevel r.1 r.2) s := by
  induction ps generalizing s with
  | nil => simp [setPieces] at h
  | cons p ps ih =>
    simp only [setPieces] at h
    cases hp : parsePiece p with
    | none =>
      rw [hp] at h
      simp only [Prod.mk.injEq, true_and] at h
      refine ⟨[], p, ps, [], rfl, ⟨rfl, by simp⟩, fun r hr => ?_, h.symm⟩
      obtain ⟨h1, h2⟩ := hr
      simp only [List.map_cons, List.map_nil, List.cons.injEq, and_true] at h1
      rw [(parsePiece_iff p r.1 r.2).2 ⟨h2 r (by simp), h1⟩] at hp
      cases hp
    | some r =>
      rw [hp] at h
      dsimp only at h
      obtain ⟨a, q, b, rs, h1, h2, h3, h4⟩ := ih _ h
      obtain ⟨g1, g2⟩ := (parsePiece_iff p r.1 r.2).1 hp
      refine ⟨p :: a, q, b, r :: rs, by rw [h1]; rfl, ⟨by rw [List.map_cons, ← h2.1, g2], ?_⟩, h3, h4⟩
      intro x hx
      rcases List.mem_cons.1 hx with rfl | hx
      · exact g1
      · exact h2.2 x hx

/-- What does take effect: the pairs before the first malformed one. -/
theorem C107_refused_partial (s s' : St) (text : Bytes) (h : s.config text = (false, s')) :
    ∃ a p b rs, Splits text (a ++ p :: b) ∧ Pairs a rs ∧ (∀ r : Rule, ¬ Pairs [p] [r]) ∧
      s' = rs.foldl (fun s r => (s.step (.set r.1 r.2)).2) s := by
  obtain ⟨a, p, b, rs, h1, h2, h3, h4⟩ := setPieces_false _ _ _ h
  exact ⟨a, p, b, rs, h1 ▸ splits_pieces text, h2, h3, h4⟩

example : Splits [42, 61, 73, 78, 70, 79, 58, 97, 61, 65, 76, 76] [[42, 61, 73, 78, 70, 79], [97, 61, 65, 76, 76]] ∧
    Pairs [[42, 61, 73, 78, 70, 79], [97, 61, 65, 76, 76]] [([42], .info), ([97], .all)] := by
  refine ⟨⟨by simp, .inl ⟨by decide, by simp⟩⟩, rfl, by simp⟩

/-! ### C106: levels -/

theorem run_snoc (s : St) (ops : List Op) (op : Op) : s.run (ops ++ [op]) = ((s.run ops).step op).2 := by
  induction ops generalizing s with
  | nil => rfl
  | cons o ops ih => exact ih _

theorem rules_agree {s : St} {rs : List Rule} (new : List Rule) (h : Agree s.table rs) (hd : ∀ r ∈ new, Documented r.1) :
    Agree (new.foldl (fun s r => s.setLevel r.1 r.2) s).table (rs ++ new) := by
  induction new generalizing s rs with
  | nil => simpa using h
  | cons r new ih =>
    have := ih (setLevel_agree h r.1 r.2 (hd r (by simp))) (fun r hr => hd r (List.mem_cons_of_mem _ hr))
    simpa using this

/-- Every logger has the level of the last rule that speaks of it. -/
def Right (s : St) (rs : List Rule) : Prop := ∀ (i : Nat) n g, s.loggers[i]? = some (n, g) → validName n = true ∧ g = Wanted n rs

theorem rule_right {s : St} {rs : List Rule} (h : Right s rs) (pat : Bytes) (l : Level) : Right (s.setLevel pat l) (rs ++ [(pat, l)]) := by
  intro i n g hi
  obtain ⟨g', h1, h2, h3⟩ := (setLevel_loggers s pat l i n g).1 hi
  obtain ⟨v, e⟩ := h i n g' h1
  refine ⟨v, ?_⟩
  obtain ⟨w1, w2⟩ := wanted_snoc n rs pat l
  by_cases hm : Matches pat n
  · rw [w1 hm, h2 hm]
  · rw [w2 hm, h3 hm, e]

theorem rules_right {s : St} {rs : List Rule} (new : List Rule) (h : Right s rs) :
    Right (new.foldl (fun s r => s.setLevel r.1 r.2) s) (rs ++ new) := by
  induction new generalizing s rs with
  | nil => simpa using h
  | cons r new ih =>
    have := ih (rule_right h r.1 r.2)
    simpa using this

/-- Rules given later apply to loggers that exist, whatever the prefix: their level is that of the last of the rules that
speaks of them, and otherwise stays. -/
theorem C106_existing (s : St) (pat : Bytes) (l : Level) (i : Nat) (n : Bytes) (g : Level) (h : s.loggers[i]? = some (n, g)) :
    (Matches pat n → (s.step (.set pat l)).2.loggers[i]? = some (n, l)) ∧
    (¬ Matches pat n → (s.step (.set pat l)).2.loggers[i]? = some (n, g)) :=
  ⟨fun hm => (setLevel_loggers s pat l i n l).2 ⟨g, h, fun _ => rfl, fun h' => absurd hm h'⟩,
   fun hm => (setLevel_loggers s pat l i n g).2 ⟨g, h, fun h' => absurd h' hm, fun _ => rfl⟩⟩

/-- The full claim: at any time every logger has the level of the last rule that speaks of it, so that it does not matter
whether loggers are created before or after the levels are set. -/
def C106_level_claim : Prop :=
  ∀ (ops : List Op) (rs : List Rule), Gives ops rs → ∀ (i : Nat) n g, (St.run {} ops).loggers[i]? = some (n, g) → g = Wanted n rs

/-- Not for a prefix that does not end at a dot: after `a*` is set to ALL, a logger `ab` gets ALL if it exists, and NONE if
it is created later. -/
theorem C106_level_counterexample : ¬ C106_level_claim ∧
    ((St.run {} [.logger [97, 98], .set [97, 42] .all]).loggers = [([97, 98], .all)] ∧
      (St.run {} [.set [97, 42] .all, .logger [97, 98]]).loggers = [([97, 98], .none)]) := by
  refine ⟨fun h => ?_, by decide, by decide⟩
  have := h [.set [97, 42] .all, .logger [97, 98]] [([97, 42], .all)]
    (Gives.logger (ops := [.set [97, 42] .all]) (Gives.set (ops := []) (rs := []) .nil)) 0 [97, 98] .none (by decide)
  have w : Wanted [97, 98] [([97, 42], .all)] = .all := (wanted_snoc [97, 98] [] [97, 42] .all).1 (.inr (.inr ⟨[97], rfl, ⟨[98], rfl⟩⟩))
  rw [w] at this
  cases this

/-- It holds for the prefixes of the documentation. -/
theorem C106_level_partial (ops : List Op) (rs : List Rule) (h : Gives ops rs) (hd : ∀ r ∈ rs, Documented r.1) (i : Nat) (n : Bytes) (g : Level)
    (hi : (St.run {} ops).loggers[i]? = some (n, g)) : g = Wanted n rs := by
  have key : Agree (St.run {} ops).table rs ∧ Right (St.run {} ops) rs := by
    clear hi
    induction h with
    | nil =>
      refine ⟨fun n _ => ?_, fun i n g h => by simp [St.run] at h⟩
      rcases findLevel_spec [] n with ⟨c, l, -, h, -⟩ | ⟨-, h⟩
      · simp [lookup] at h
      · exact h
    | @logger n ops rs _ ih =>
      obtain ⟨h1, h2⟩ := ih hd
      rw [run_snoc]
      simp only [St.step, St.addLogger]
      split
      · rename_i hv
        refine ⟨h1, fun i n' g hi => ?_⟩
        by_cases hlt : i < (St.run {} ops).loggers.length
        · rw [List.getElem?_append_left hlt] at hi
          exact h2 i n' g hi
        · rw [List.getElem?_append_right (by omega)] at hi
          have : i - (St.run {} ops).loggers.length = 0 := by
            cases hk : i - (St.run {} ops).loggers.length with
            | zero => rfl
            | succ k => rw [hk] at hi; simp at hi
          rw [this] at hi
          simp only [List.getElem?_cons_zero, Option.some.injEq, Prod.mk.injEq] at hi
          obtain ⟨rfl, rfl⟩ := hi
          exact ⟨hv, h1 n hv⟩
      · exact ⟨h1, h2⟩
    | register _ ih =>
      obtain ⟨h1, h2⟩ := ih hd
      rw [run_snoc]
      simp only [St.step, St.register]
      split <;> exact ⟨h1, h2⟩
    | @set pat l ops rs _ ih =>
      obtain ⟨h1, h2⟩ := ih (fun r hr => hd r (by simp [hr]))
      rw [run_snoc]
      exact ⟨setLevel_agree h1 pat l (hd (pat, l) (by simp)), rule_right h2 pat l⟩
    | @config text ps new ops rs _ hs hp ih =>
      obtain ⟨h1, h2⟩ := ih (fun r hr => hd r (by simp [hr]))
      rw [run_snoc]
      have e := (C107_config (St.run {} ops) _ text).2 ⟨ps, new, hs, hp, rfl⟩
      simp only [St.step] at e ⊢
      rw [e]
      exact ⟨rules_agree new h1 (fun r hr => hd r (by simp [hr])), rules_right new h2⟩
  exact (key.2 i n g hi).2

theorem hasDoubleDot_iff (n : Bytes) : hasDoubleDot n = true ↔ ∃ a b, n = a ++ [46, 46] ++ b := by
  induction n with
  | nil => simp [hasDoubleDot]
  | cons x n ih =>
    cases n with
    | nil =>
      simp only [hasDoubleDot, Bool.false_eq_true, false_iff]
      rintro ⟨a, b, h⟩
      have := congrArg List.length h
      simp at this
      omega
    | cons y n =>
      simp only [hasDoubleDot, Bool.or_eq_true, Bool.and_eq_true, beq_iff_eq]
      rw [ih]
      constructor
      · rintro (⟨rfl, rfl⟩ | ⟨a, b, h⟩)
        · exact ⟨[], n, rfl⟩
        · exact ⟨x :: a, b, by rw [h]; rfl⟩
      · rintro ⟨a, b, h⟩
        cases a with
        | nil => simp at h; exact .inl ⟨h.1, h.2.1⟩
        | cons z a =>
          simp only [List.cons_append, List.cons.injEq] at h
          exact .inr ⟨a, b, h.2⟩

theorem validName_iff (n : Bytes) : validName n = true ↔ GoodName n := by
  have hch : ∀ c, okChar c = true ↔ (97 ≤ c ∧ c ≤ 122 ∨ 65 ≤ c ∧ c ≤ 90 ∨ 48 ≤ c ∧ c ≤ 57 ∨ c ∈ ([126, 35, 37, 95, 60, 62, 46, 45] : Bytes)) := by
    intro c
    simp only [okChar, Bool.or_eq_true, Bool.and_eq_true, decide_eq_true_eq, beq_iff_eq, List.mem_cons, List.not_mem_nil, or_false, or_assoc]
  unfold validName GoodName
  have hd := hasDoubleDot_iff n
  have hh : (n.head? == some 46) = true ↔ ∃ l, n = 46 :: l := by
    cases n with
    | nil => simp
    | cons x n => simp
  have hl : (n.getLast? == some 46) = true ↔ ∃ l, n = l ++ [46] := by
    rw [beq_iff_eq]; exact List.getLast?_eq_some_iff
  split
  · rename_i h
    simp only [Bool.or_eq_true, hd, hh, hl, List.isEmpty_iff] at h
    simp only [Bool.false_eq_true, false_iff]
    rintro ⟨h1, h2, h3, h4, h5⟩
    rcases h with ((h | ⟨l, h⟩) | ⟨l, h⟩) | ⟨a, b, h⟩
    · exact h1 h
    · exact h3 l h
    · exact h4 l h
    · exact h5 a b h
  · rename_i h
    simp only [Bool.or_eq_true, hd, hh, hl, List.isEmpty_iff, not_or, not_exists] at h
    obtain ⟨⟨⟨h1, h2⟩, h3⟩, h4⟩ := h
    rw [List.all_eq_true]
    simp only [hch]
    exact ⟨fun g => ⟨h1, g, h2, h3, h4⟩, fun g => g.2.1⟩

/-- A logger is made, or a name registered, exactly if the name is good; otherwise nothing changes. -/
theorem C106_name (s : St) (n : Bytes) :
    ((s.step (.logger n)).1 = true ↔ GoodName n) ∧ ((s.step (.register n)).1 = true ↔ GoodName n) ∧
    (¬ GoodName n → (s.step (.logger n)).2 = s ∧ (s.step (.register n)).2 = s) := by
  rw [← validName_iff]
  simp only [St.step, St.addLogger, St.register]
  by_cases h : validName n = true <;> simp [h]

example : GoodName [110, 46, 120] := (validName_iff _).1 (by decide)

/-- The names that are listed are those of the loggers and those registered. -/
theorem C106_names (ops : List Op) (n : Bytes) :
    n ∈ (St.run {} ops).loggerNames ↔ GoodName n ∧ (Op.logger n ∈ ops ∨ Op.register n ∈ ops) := by
  have keep : ∀ (ps : List Bytes) (s : St), (setPieces s ps).2.loggerNames = s.loggerNames := by
    have one : ∀ (s : St) pat l, (s.setLevel pat l).loggerNames = s.loggerNames := by
      intro s pat l
      unfold St.setLevel St.loggerNames
      generalize (if pat.isEmpty then pat else pat.dropLast) = p0
      split
      · simp only [List.map_map]
        congr 2
        funext g
        simp only [Function.comp]
        split <;> rfl
      · simp only [List.map_map]
        congr 2
        funext g
        simp only [Function.comp]
        split <;> rfl
    intro ps
    induction ps with
    | nil => intro s; rfl
    | cons p ps ih =>
      intro s
      simp only [setPieces]
      cases parsePiece p with
      | none => rfl
      | some r => rw [ih, one]
  have one : ∀ (s : St) pat l, (s.setLevel pat l).loggerNames = s.loggerNames := by
    intro s pat l
    unfold St.setLevel St.loggerNames
    generalize (if pat.isEmpty then pat else pat.dropLast) = p0
    split
    · simp only [List.map_map]
      congr 2
      funext g
      simp only [Function.comp]
      split <;> rfl
    · simp only [List.map_map]
      congr 2
      funext g
      simp only [Function.comp]
      split <;> rfl
  have gen : ∀ (ops : List Op) (s : St), n ∈ (s.run ops).loggerNames ↔
      n ∈ s.loggerNames ∨ validName n = true ∧ (Op.logger n ∈ ops ∨ Op.register n ∈ ops) := by
    intro ops
    induction ops with
    | nil => intro s; simp [St.run]
    | cons op ops ih =>
      intro s
      rw [St.run, ih]
      have hstep : n ∈ (s.step op).2.loggerNames ↔ n ∈ s.loggerNames ∨ validName n = true ∧ (op = .logger n ∨ op = .register n) := by
        cases op with
        | logger m =>
          simp only [St.step, St.addLogger]
          split
          · rename_i hv
            simp only [St.loggerNames, List.map_append, List.mem_append, List.map_cons, List.map_nil, List.mem_singleton, Op.logger.injEq,
              reduceCtorEq, or_false]
            constructor
            · rintro ((h | rfl) | h)
              · exact .inl (.inl h)
              · exact .inr ⟨hv, rfl⟩
              · exact .inl (.inr h)
            · rintro ((h | h) | ⟨-, rfl⟩)
              · exact .inl (.inl h)
              · exact .inr h
              · exact .inl (.inr rfl)
          · rename_i hv
            simp only [Op.logger.injEq, reduceCtorEq, or_false]
            constructor
            · exact .inl
            · rintro (h | ⟨h, rfl⟩)
              · exact h
              · exact absurd h hv
        | register m =>
          simp only [St.step, St.register]
          split
          · rename_i hv
            simp only [St.loggerNames, List.mem_append, List.mem_singleton, Op.register.injEq, reduceCtorEq, false_or]
            constructor
            · rintro (h | h | rfl)
              · exact .inl (.inl h)
              · exact .inl (.inr h)
              · exact .inr ⟨hv, rfl⟩
            · rintro ((h | h) | ⟨-, rfl⟩)
              · exact .inl h
              · exact .inr (.inl h)
              · exact .inr (.inr rfl)
          · rename_i hv
            simp only [Op.register.injEq, reduceCtorEq, false_or]
            constructor
            · exact .inl
            · rintro (h | ⟨h, rfl⟩)
              · exact h
              · exact absurd h hv
        | set pat l =>
          simp only [St.step, one]
          simp
        | config t =>
          simp only [St.step, St.config, keep]
          simp
      rw [hstep]
      simp only [List.mem_cons]
      constructor
      · rintro ((h | ⟨v, h | h⟩) | ⟨v, h | h⟩)
        · exact .inl h
        · exact .inr ⟨v, .inl (.inl h.symm)⟩
        · exact .inr ⟨v, .inr (.inl h.symm)⟩
        · exact .inr ⟨v, .inl (.inr h)⟩
        · exact .inr ⟨v, .inr (.inr h)⟩
      · rintro (h | ⟨v, (h | h) | (h | h)⟩)
        · exact .inl (.inl h)
        · exact .inl (.inr ⟨v, .inl h.symm⟩)
        · exact .inr ⟨v, .inl h⟩
        · exact .inl (.inr ⟨v, .inr h.symm⟩)
        · exact .inr ⟨v, .inr h⟩
  have := gen ops {}
  rw [← validName_iff]
  simpa [St.loggerNames] using this

/-- FATAL is logged whatever the level; NONE lets nothing else through, ALL everything; a level lets through what the lower
levels do. -/
theorem C106_enabled (a b l : Level) :
    enabled a .fatal = true ∧ (enabled .none l = true → l = .fatal ∨ l = .none) ∧ enabled .all l = true ∧
    (enabled b a = true → enabled a l = true → enabled b l = true) := by
  unfold enabled
  refine ⟨?_, ?_, ?_, ?_⟩
  · cases a <;> decide
  · cases l <;> decide
  · cases l <;> decide
  · simp only [decide_eq_true_eq]; omega

example : ∃ rs, Gives [.logger [97, 46, 98], .set [42] .info, .set [97, 46, 42] .debug, .logger [97, 46, 99]] rs ∧
    (∀ r ∈ rs, Documented r.1) ∧ (St.run {} [.logger [97, 46, 98], .set [42] .info, .set [97, 46, 42] .debug, .logger [97, 46, 99]]).loggers =
      [([97, 46, 98], .debug), ([97, 46, 99], .debug)] := by
  refine ⟨[([42], .info), ([97, 46, 42], .debug)], ?_, ?_, by decide⟩
  · exact Gives.logger (ops := [.logger [97, 46, 98], .set [42] .info, .set [97, 46, 42] .debug])
      (Gives.set (ops := [.logger [97, 46, 98], .set [42] .info]) (rs := [([42], .info)])
        (Gives.set (ops := [.logger [97, 46, 98]]) (rs := []) (Gives.logger (ops := []) .nil)))
  · intro r hr
    simp only [List.mem_cons, List.not_mem_nil, or_false] at hr
    rcases hr with rfl | rfl
    · exact .inr (.inl rfl)
    · exact .inr (.inr (.inl ⟨[97], rfl⟩))

end Ndn.Logging
