import Verif.Interest.Lemmas
namespace Ndn.Interest
open Tlv Block Block.Spec Name Name.Spec Packet Packet.Spec Spec

/-- Recognised types still allowed after position `last`. -/
def L (last : Nat) : List Nat := [33, 18, 30, 10, 12].drop (last - 1)

def Ord (last : Nat) (X : List Nat) : Prop :=
  ∃ ts k, X = ts ++ List.replicate k 34 ∧ ts.Sublist (L last)

def posOf (t : Nat) : Nat :=
  if t = 33 then 2 else if t = 18 then 3 else if t = 30 then 4 else if t = 10 then 5 else 6

theorem cons_sub {a b : Nat} {l m : List Nat} :
    (a :: l).Sublist (b :: m) ↔ (a :: l).Sublist m ∨ (a = b ∧ l.Sublist m) := by
  constructor
  · intro h
    cases h with
    | cons _ h => exact Or.inl h
    | cons_cons _ h => exact Or.inr ⟨rfl, h⟩
  · rintro (h | ⟨rfl, h⟩)
    · exact h.cons _
    · exact h.cons_cons _

theorem sub_cons {last t : Nat} {ts : List Nat} (h1 : 1 ≤ last) (h7 : last ≤ 7)
    (ht : t = 33 ∨ t = 18 ∨ t = 30 ∨ t = 10 ∨ t = 12) :
    (t :: ts).Sublist (L last) ↔ last < posOf t ∧ ts.Sublist (L (posOf t)) := by
  have hl : last = 1 ∨ last = 2 ∨ last = 3 ∨ last = 4 ∨ last = 5 ∨ last = 6 ∨ last = 7 := by omega
  rcases ht with rfl | rfl | rfl | rfl | rfl <;> rcases hl with rfl | rfl | rfl | rfl | rfl | rfl | rfl <;>
    simp [L, posOf, cons_sub]

theorem Ord_cons {last t : Nat} {X : List Nat} (h1 : 1 ≤ last) (h7 : last ≤ 7)
    (ht : t = 33 ∨ t = 18 ∨ t = 30 ∨ t = 10 ∨ t = 12) :
    Ord last (t :: X) ↔ last < posOf t ∧ Ord (posOf t) X := by
  constructor
  · rintro ⟨ts, k, hX, hs⟩
    cases ts with
    | nil =>
      cases k with
      | zero => simp at hX
      | succ k => simp [List.replicate_succ] at hX; omega
    | cons a ts =>
      simp only [List.cons_append, List.cons.injEq] at hX
      obtain ⟨rfl, hX⟩ := hX
      rw [sub_cons h1 h7 ht] at hs
      exact ⟨hs.1, ts, k, hX, hs.2⟩
  · rintro ⟨h, ts, k, hX, hs⟩
    exact ⟨t :: ts, k, by rw [hX]; rfl, (sub_cons h1 h7 ht).mpr ⟨h, hs⟩⟩

theorem L_subset {last t : Nat} (h : t ∈ L last) : t = 33 ∨ t = 18 ∨ t = 30 ∨ t = 10 ∨ t = 12 := by
  have := List.mem_of_mem_drop h
  simpa using this

theorem Ord_34 {last : Nat} {X : List Nat} : Ord last (34 :: X) ↔ Ord 7 X := by
  constructor
  · rintro ⟨ts, k, hX, hs⟩
    cases ts with
    | nil =>
      cases k with
      | zero => simp at hX
      | succ k =>
        simp only [List.replicate_succ, List.nil_append, List.cons.injEq, true_and] at hX
        exact ⟨[], k, by simpa using hX, by simp⟩
    | cons a ts =>
      simp only [List.cons_append, List.cons.injEq] at hX
      have := L_subset (hs.subset (by simp : a ∈ a :: ts))
      omega
  · rintro ⟨ts, k, hX, hs⟩
    have : ts = [] := by simpa [L] using hs
    subst this
    exact ⟨[], k + 1, by rw [hX]; simp [List.replicate_succ], by simp⟩

theorem Ord_nil (last : Nat) : Ord last [] := ⟨[], 0, by simp, by simp⟩

theorem Ord_not_mem {last t : Nat} {X : List Nat} (h : Ord last X) (h1 : 1 ≤ last) (h7 : last ≤ 7)
    (ht : t = 33 ∨ t = 18 ∨ t = 30 ∨ t = 10 ∨ t = 12) (hp : posOf t ≤ last) : t ∉ X := by
  obtain ⟨ts, k, rfl, hs⟩ := h
  intro hm
  rcases List.mem_append.mp hm with hm | hm
  · have hm : t ∈ L last := hs.subset hm
    have hl : last = 1 ∨ last = 2 ∨ last = 3 ∨ last = 4 ∨ last = 5 ∨ last = 6 ∨ last = 7 := by omega
    rcases ht with rfl | rfl | rfl | rfl | rfl <;> rcases hl with rfl | rfl | rfl | rfl | rfl | rfl | rfl <;>
      revert hm hp <;> decide
  · have := List.eq_of_mem_replicate hm; omega

/-- After ApplicationParameters. -/
theorem iLoop_tail (es : List Raw) (f f' : IFields) (hp : f.params ≠ []) :
    iLoop f 8 es = (true, f') ↔ (∀ e ∈ es, Ignorable e) ∧
      f' = { f with params := f.params ++ es.filter (fun e => e.type ≠ 34 ∧ e.type ≠ 36) } := by
  induction es generalizing f with
  | nil => simp [iLoop]; exact eq_comm
  | cons e es ih =>
    by_cases hi : Ignorable e
    · have hall : (∀ x ∈ e :: es, Ignorable x) ↔ ∀ x ∈ es, Ignorable x := by simp [hi]
      rw [hall]
      unfold Ignorable at hi
      unfold iLoop
      rw [if_neg (show ¬ e.type = 33 by omega), if_neg (show ¬ e.type = 18 by omega),
        if_neg (show ¬ e.type = 30 by omega), if_neg (show ¬ e.type = 10 by omega),
        if_neg (show ¬ e.type = 12 by omega)]
      by_cases h34 : e.type = 34
      · rw [if_pos h34, if_pos (by decide), ih f hp, List.filter_cons_of_neg (by simp [h34])]
      · rw [if_neg h34]
        by_cases h36 : e.type = 36
        · rw [if_pos h36, if_pos (by decide), ih f hp, List.filter_cons_of_neg (by simp [h36])]
        · rw [if_neg h36, if_neg (by rw [isCritical_iff]; omega), if_pos hp, ih _ (by simp),
            List.filter_cons_of_pos (by simp [h34, h36])]
          simp
    · constructor
      · intro h
        exfalso
        unfold Ignorable at hi
        unfold iLoop at h
        rw [if_neg (show ¬ e.type = 34 by omega), if_neg (show ¬ e.type = 36 by omega),
          if_pos (show isCriticalType e.type = true by rw [isCritical_iff]; exact hi)] at h
        simp at h
      · intro h; exact absurd (h.1 e (by simp)) hi

/-- What the loop does from position `last` on. -/
structure LoopSpec (f f' : IFields) (last : Nat) (pre tail : List Raw) : Prop where
  known : ∀ e ∈ pre, Known e ∨ Ignorable e
  ord : Ord last ((pre.filter (fun e => Known e)).map Raw.type)
  empty : ∀ e ∈ pre, e.type = 33 ∨ e.type = 18 → e.value = []
  name : f'.name = f.name
  cbp : f'.canBePrefix = (f.canBePrefix || (pick 33 pre).isSome)
  mbf : f'.mustBeFresh = (f.mustBeFresh || (pick 18 pre).isSome)
  hint : match pick 30 pre with | none => f'.hint = f.hint | some e => hintDecode f.hint e = (true, f'.hint)
  nonce4 : ∀ e ∈ pick 10 pre, e.value.length = 4
  nonce : f'.nonce = ((pick 10 pre).map Raw.value).or f.nonce
  life : match pick 12 pre with | none => f'.lifetime = f.lifetime | some e => readNniValue e.value = some f'.lifetime
  hop : if last ≥ 7 then f'.hopLimit = f.hopLimit else
    match pick 34 pre with | none => f'.hopLimit = f.hopLimit | some e => ∃ h, e.value = [h] ∧ f'.hopLimit = some h
  rest : ∀ e ∈ tail, Ignorable e
  params : f'.params = tail.take 1 ++ (tail.drop 1).filter (fun e => e.type ≠ 34 ∧ e.type ≠ 36)

theorem pick_none_of_ord {last t : Nat} {pre : List Raw} (h : Ord last ((pre.filter (fun e => Known e)).map Raw.type))
    (h1 : 1 ≤ last) (h7 : last ≤ 7) (ht : t = 33 ∨ t = 18 ∨ t = 30 ∨ t = 10 ∨ t = 12) (hp : posOf t ≤ last) :
    pick t pre = none := by
  unfold pick
  rw [List.find?_eq_none]
  intro e he
  have := Ord_not_mem h h1 h7 ht hp
  intro het
  simp only [decide_eq_true_eq] at het
  apply this
  refine List.mem_map.mpr ⟨e, List.mem_filter.mpr ⟨he, ?_⟩, het⟩
  rw [decide_eq_true_eq]; unfold Known; omega

theorem pick_cons_eq {t : Nat} {e : Raw} (h : e.type = t) (es : List Raw) : pick t (e :: es) = some e := by
  simp [pick, h]

theorem pick_cons_ne {t : Nat} {e : Raw} (h : e.type ≠ t) (es : List Raw) : pick t (e :: es) = pick t es := by
  simp [pick, h]

theorem known_ord_cons {last : Nat} {e : Raw} {pre : List Raw} (hk : Known e) :
    Ord last (((e :: pre).filter (fun e => Known e)).map Raw.type) ↔
      Ord last (e.type :: (pre.filter (fun e => Known e)).map Raw.type) := by
  rw [List.filter_cons_of_pos (by simpa using hk)]; rfl

theorem iLoop_iff (es : List Raw) (f f' : IFields) (last : Nat) (h1 : 1 ≤ last) (h7 : last ≤ 7) (hp : f.params = []) :
    iLoop f last es = (true, f') ↔
      LoopSpec f f' last (es.takeWhile (fun e => e.type ≠ 36)) (es.dropWhile (fun e => e.type ≠ 36)) := by
  induction es generalizing f last with
  | nil =>
    simp only [iLoop, Prod.mk.injEq, true_and, List.takeWhile_nil, List.dropWhile_nil]
    constructor
    · rintro rfl
      exact ⟨by simp, Ord_nil _, by simp, rfl, by simp [pick], by simp [pick], by simp [pick], by simp [pick],
        by simp [pick], by simp [pick], by simp [pick], by simp, by simp [hp]⟩
    · intro h
      rcases f with ⟨a1, a2, a3, a4, a5, a6, a7, a8⟩
      rcases f' with ⟨b1, b2, b3, b4, b5, b6, b7, b8⟩
      have g1 := h.name; have g2 := h.cbp; have g3 := h.mbf; have g4 := h.hint; have g5 := h.nonce
      have g6 := h.life; have g7 := h.hop; have g8 := h.params
      simp only [pick, List.find?_nil, Option.isSome_none, Bool.or_false, Option.map_none, Option.none_or,
        ite_self, List.take_nil, List.drop_nil, List.filter_nil, List.append_nil] at g1 g2 g3 g4 g5 g6 g7 g8 hp
      rw [g1, g2, g3, g4, g5, g6, g7, g8, hp]
  | cons e es ih =>
    by_cases h36 : e.type = 36
    · rw [List.takeWhile_cons_of_neg (by simp [h36]), List.dropWhile_cons_of_neg (by simp [h36])]
      have e1 : iLoop f last (e :: es) = iLoop { f with params := f.params ++ [e] } 8 es := by
        conv => lhs; unfold iLoop
        rw [if_neg (show ¬ e.type = 33 by omega), if_neg (show ¬ e.type = 18 by omega),
          if_neg (show ¬ e.type = 30 by omega), if_neg (show ¬ e.type = 10 by omega),
          if_neg (show ¬ e.type = 12 by omega), if_neg (show ¬ e.type = 34 by omega), if_pos h36,
          if_neg (by omega)]
      rw [e1, iLoop_tail _ _ _ (by simp)]
      have hie : Ignorable e := by unfold Ignorable; omega
      constructor
      · rintro ⟨g, rfl⟩
        exact ⟨by simp, Ord_nil _, by simp, rfl, by simp [pick], by simp [pick], by simp [pick], by simp [pick],
          by simp [pick], by simp [pick], by simp [pick], by simpa [hie] using g, by simp [hp]⟩
      · intro h
        refine ⟨fun x hx => h.rest x (by simp [hx]), ?_⟩
        rcases f with ⟨a1, a2, a3, a4, a5, a6, a7, a8⟩
        rcases f' with ⟨b1, b2, b3, b4, b5, b6, b7, b8⟩
        have g1 := h.name; have g2 := h.cbp; have g3 := h.mbf; have g4 := h.hint; have g5 := h.nonce
        have g6 := h.life; have g7 := h.hop; have g8 := h.params
        simp only [pick, List.find?_nil, Option.isSome_none, Bool.or_false, Option.map_none, Option.none_or,
          ite_self, List.take_succ_cons, List.take_zero, List.drop_succ_cons, List.drop_zero] at g1 g2 g3 g4 g5 g6 g7 g8 hp
        rw [g1, g2, g3, g4, g5, g6, g7, g8, hp]; simp
    · rw [List.takeWhile_cons_of_pos (by simp [h36]), List.dropWhile_cons_of_pos (by simp [h36])]
      generalize hpre : es.takeWhile (fun e => e.type ≠ 36) = pre at ih
      generalize htl : es.dropWhile (fun e => e.type ≠ 36) = tl at ih
      by_cases hk : Known e
      · unfold Known at hk
        by_cases h34 : e.type = 34
        · -- HopLimit
          have o : Ord last (((e :: pre).filter (fun e => Known e)).map Raw.type) ↔
              Ord 7 ((pre.filter (fun e => Known e)).map Raw.type) := by
            rw [known_ord_cons hk, h34, Ord_34]
          by_cases hl : last = 7
          · subst hl
            have e1 : iLoop f 7 (e :: es) = iLoop f 7 es := by
              conv => lhs; unfold iLoop
              rw [if_neg (show ¬ e.type = 33 by omega), if_neg (show ¬ e.type = 18 by omega),
                if_neg (show ¬ e.type = 30 by omega), if_neg (show ¬ e.type = 10 by omega),
                if_neg (show ¬ e.type = 12 by omega), if_pos h34, if_pos (by decide)]
            rw [e1, ih f 7 h1 h7 hp]
            constructor
            · rintro ⟨g1, g2, g3, g4, g5, g6, g7, g8, g9, g10, g11, g12, g13⟩
              refine ⟨by simpa [Known, h34] using g1, o.mpr g2, by simpa [h34] using g3, g4, ?_, ?_, ?_, ?_, ?_, ?_, g11, g12, g13⟩ <;>
                first | rw [pick_cons_ne (by omega)]; assumption
            · rintro ⟨g1, g2, g3, g4, g5, g6, g7, g8, g9, g10, g11, g12, g13⟩
              rw [pick_cons_ne (by omega)] at g5 g6 g7 g8 g9 g10
              exact ⟨fun x hx => g1 x (by simp [hx]), o.mp g2, fun x hx => g3 x (by simp [hx]), g4, g5, g6, g7, g8, g9, g10, g11, g12, g13⟩
          · have hv : (∃ h, e.value = [h]) ∨ ¬ ∃ h, e.value = [h] := Classical.em _
            rcases hv with ⟨h, hv⟩ | hv
            · have e1 : iLoop f last (e :: es) = iLoop { f with hopLimit := some h } 7 es := by
                conv => lhs; unfold iLoop
                rw [if_neg (show ¬ e.type = 33 by omega), if_neg (show ¬ e.type = 18 by omega),
                  if_neg (show ¬ e.type = 30 by omega), if_neg (show ¬ e.type = 10 by omega),
                  if_neg (show ¬ e.type = 12 by omega), if_pos h34, if_neg (by omega), hv]
              rw [e1, ih _ 7 (by decide) (by decide) (by exact hp)]
              constructor
              · rintro ⟨g1, g2, g3, g4, g5, g6, g7, g8, g9, g10, g11, g12, g13⟩
                refine ⟨by simpa [Known, h34] using g1, o.mpr g2, by simpa [h34] using g3, g4, ?_, ?_, ?_, ?_, ?_, ?_, ?_, g12, g13⟩
                rotate_right
                · rw [if_neg (by omega), pick_cons_eq h34]
                  rw [if_pos (by decide)] at g11
                  exact ⟨h, hv, g11⟩
                all_goals first | rw [pick_cons_ne (by omega)]; assumption
              · rintro ⟨g1, g2, g3, g4, g5, g6, g7, g8, g9, g10, g11, g12, g13⟩
                rw [pick_cons_ne (by omega)] at g5 g6 g7 g8 g9 g10
                rw [if_neg (by omega), pick_cons_eq h34] at g11
                obtain ⟨h', g11, g11'⟩ := g11
                rw [hv] at g11
                simp only [List.cons.injEq, and_true] at g11
                subst g11
                exact ⟨fun x hx => g1 x (by simp [hx]), o.mp g2, fun x hx => g3 x (by simp [hx]), g4, g5, g6, g7, g8, g9, g10, by rw [if_pos (by decide)]; exact g11', g12, g13⟩
            · constructor
              · intro hh
                exfalso
                unfold iLoop at hh
                rw [if_neg (show ¬ e.type = 33 by omega), if_neg (show ¬ e.type = 18 by omega),
                  if_neg (show ¬ e.type = 30 by omega), if_neg (show ¬ e.type = 10 by omega),
                  if_neg (show ¬ e.type = 12 by omega), if_pos h34, if_neg (by omega)] at hh
                split at hh
                · rename_i h heq; exact hv ⟨h, heq⟩
                · simp at hh
              · intro hh
                have g := hh.hop
                rw [if_neg (by omega), pick_cons_eq h34] at g
                obtain ⟨h, g, _⟩ := g
                exact absurd ⟨h, g⟩ hv
        · -- the critical ones
          have hk5 : e.type = 33 ∨ e.type = 18 ∨ e.type = 30 ∨ e.type = 10 ∨ e.type = 12 := by omega
          have o : Ord last (((e :: pre).filter (fun e => Known e)).map Raw.type) ↔
              last < posOf e.type ∧ Ord (posOf e.type) ((pre.filter (fun e => Known e)).map Raw.type) := by
            rw [known_ord_cons hk, Ord_cons h1 h7 hk5]
          by_cases hlt : last < posOf e.type
          · have hpos : posOf e.type ≤ 6 ∧ 2 ≤ posOf e.type := by unfold posOf; (repeat' split) <;> omega
            have nn : LoopSpec f f' last (e :: pre) tl → pick e.type pre = none := fun h =>
              pick_none_of_ord (o.mp h.ord).2 (by omega) (by omega) hk5 (Nat.le_refl _)
            have nn' : ∀ {g : IFields}, LoopSpec g f' (posOf e.type) pre tl → pick e.type pre = none := fun h =>
              pick_none_of_ord h.ord (by omega) (by omega) hk5 (Nat.le_refl _)
            rcases hk5 with ht | ht | ht | ht | ht
            · -- CanBePrefix
              have hq : posOf e.type = 2 := by rw [ht]; rfl
              rw [hq] at hlt o nn'
              by_cases hv : e.value = []
              · have e1 : iLoop f last (e :: es) = iLoop { f with canBePrefix := true } 2 es := by
                  conv => lhs; unfold iLoop
                  rw [if_pos ht, if_neg (by omega), if_neg (by simp [hv])]
                rw [e1, ih _ 2 (by decide) (by decide) (by exact hp)]
                constructor
                · rintro ⟨g1, g2, g3, g4, g5, g6, g7, g8, g9, g10, g11, g12, g13⟩
                  refine ⟨by simpa [Known, ht] using g1, o.mpr ⟨hlt, g2⟩, by simpa [ht, hv] using g3, g4, ?_, ?_, ?_, ?_, ?_, ?_, ?_, g12, g13⟩
                  · rw [pick_cons_eq ht]; simpa using g5
                  rotate_right
                  · rw [if_neg (by omega), pick_cons_ne (by omega)]; simpa using g11
                  all_goals first | rw [pick_cons_ne (by omega)]; assumption
                · rintro ⟨g1, g2, g3, g4, g5, g6, g7, g8, g9, g10, g11, g12, g13⟩
                  rw [pick_cons_ne (by omega)] at g6 g7 g8 g9 g10
                  rw [pick_cons_eq ht] at g5
                  rw [if_neg (by omega), pick_cons_ne (by omega)] at g11
                  exact ⟨fun x hx => g1 x (by simp [hx]), (o.mp g2).2, fun x hx => g3 x (by simp [hx]), g4, by simpa using g5, g6, g7, g8, g9, g10, by rw [if_neg (by decide)]; exact g11, g12, g13⟩
              · constructor
                · intro hh
                  unfold iLoop at hh
                  rw [if_pos ht, if_neg (by omega), if_pos (by simpa using hv)] at hh
                  simp at hh
                · intro hh; exact absurd (hh.empty e (by simp) (Or.inl ht)) hv
            · -- MustBeFresh
              have hq : posOf e.type = 3 := by rw [ht]; rfl
              rw [hq] at hlt o nn'
              by_cases hv : e.value = []
              · have e1 : iLoop f last (e :: es) = iLoop { f with mustBeFresh := true } 3 es := by
                  conv => lhs; unfold iLoop
                  rw [if_neg (show ¬ e.type = 33 by omega), if_pos ht, if_neg (by omega), if_neg (by simp [hv])]
                rw [e1, ih _ 3 (by decide) (by decide) (by exact hp)]
                constructor
                · rintro ⟨g1, g2, g3, g4, g5, g6, g7, g8, g9, g10, g11, g12, g13⟩
                  refine ⟨by simpa [Known, ht] using g1, o.mpr ⟨hlt, g2⟩, by simpa [ht, hv] using g3, g4, ?_, ?_, ?_, ?_, ?_, ?_, ?_, g12, g13⟩
                  rotate_left
                  · rw [pick_cons_eq ht]; simpa using g6
                  rotate_right 2
                  · rw [if_neg (by omega), pick_cons_ne (by omega)]; simpa using g11
                  all_goals first | rw [pick_cons_ne (by omega)]; assumption
                · rintro ⟨g1, g2, g3, g4, g5, g6, g7, g8, g9, g10, g11, g12, g13⟩
                  rw [pick_cons_ne (by omega)] at g5 g7 g8 g9 g10
                  rw [pick_cons_eq ht] at g6
                  rw [if_neg (by omega), pick_cons_ne (by omega)] at g11
                  exact ⟨fun x hx => g1 x (by simp [hx]), (o.mp g2).2, fun x hx => g3 x (by simp [hx]), g4, g5, by simpa using g6, g7, g8, g9, g10, by rw [if_neg (by decide)]; exact g11, g12, g13⟩
              · constructor
                · intro hh
                  unfold iLoop at hh
                  rw [if_neg (show ¬ e.type = 33 by omega), if_pos ht, if_neg (by omega), if_pos (by simpa using hv)] at hh
                  simp at hh
                · intro hh; exact absurd (hh.empty e (by simp) (Or.inr ht)) hv
            · -- ForwardingHint
              have hq : posOf e.type = 4 := by rw [ht]; rfl
              rw [hq] at hlt o nn'
              rw [ht] at nn nn'
              have e1 : iLoop f last (e :: es) = if (hintDecode f.hint e).1 = true then
                  iLoop { f with hint := (hintDecode f.hint e).2 } 4 es else (false, { f with hint := (hintDecode f.hint e).2 }) := by
                conv => lhs; unfold iLoop
                rw [if_neg (show ¬ e.type = 33 by omega), if_neg (show ¬ e.type = 18 by omega), if_pos ht, if_neg (by omega)]
              rw [e1]
              by_cases hv : (hintDecode f.hint e).1 = true
              · rw [if_pos hv, ih _ 4 (by decide) (by decide) (by exact hp)]
                constructor
                · intro hh
                  have nnn := nn' hh
                  obtain ⟨g1, g2, g3, g4, g5, g6, g7, g8, g9, g10, g11, g12, g13⟩ := hh
                  rw [nnn] at g7
                  refine ⟨by simpa [Known, ht] using g1, o.mpr ⟨hlt, g2⟩, by simpa [ht] using g3, g4, ?_, ?_, ?_, ?_, ?_, ?_, ?_, g12, g13⟩
                  rotate_left 2
                  · rw [pick_cons_eq ht]
                    simp only at g7 ⊢
                    rw [g7, ← hv]
                  rotate_right 3
                  · rw [if_neg (by omega), pick_cons_ne (by omega)]; simpa using g11
                  all_goals first | rw [pick_cons_ne (by omega)]; assumption
                · intro hh
                  have nnn := nn hh
                  obtain ⟨g1, g2, g3, g4, g5, g6, g7, g8, g9, g10, g11, g12, g13⟩ := hh
                  rw [pick_cons_ne (by omega)] at g5 g6 g8 g9 g10
                  rw [pick_cons_eq ht] at g7
                  rw [if_neg (by omega), pick_cons_ne (by omega)] at g11
                  refine ⟨fun x hx => g1 x (by simp [hx]), (o.mp g2).2, fun x hx => g3 x (by simp [hx]), g4, g5, g6, ?_, g8, g9, g10, by rw [if_neg (by decide)]; exact g11, g12, g13⟩
                  rw [nnn]
                  simp only at g7 ⊢
                  rw [g7]
              · rw [if_neg hv]
                constructor
                · intro hh; simp at hh
                · intro hh
                  have g := hh.hint
                  rw [pick_cons_eq ht] at g
                  simp only at g
                  rw [g] at hv; simp at hv
            · -- Nonce
              have hq : posOf e.type = 5 := by rw [ht]; rfl
              rw [hq] at hlt o nn'
              rw [ht] at nn nn'
              by_cases hv : e.value.length = 4
              · have e1 : iLoop f last (e :: es) = iLoop { f with nonce := some e.value } 5 es := by
                  conv => lhs; unfold iLoop
                  rw [if_neg (show ¬ e.type = 33 by omega), if_neg (show ¬ e.type = 18 by omega),
                    if_neg (show ¬ e.type = 30 by omega), if_pos ht, if_neg (by omega), if_neg (by simp [hv])]
                rw [e1, ih _ 5 (by decide) (by decide) (by exact hp)]
                constructor
                · intro hh
                  have nnn := nn' hh
                  obtain ⟨g1, g2, g3, g4, g5, g6, g7, g8, g9, g10, g11, g12, g13⟩ := hh
                  rw [nnn] at g9
                  refine ⟨by simpa [Known, ht] using g1, o.mpr ⟨hlt, g2⟩, by simpa [ht] using g3, g4, ?_, ?_, ?_, ?_, ?_, ?_, ?_, g12, g13⟩
                  rotate_left 3
                  · rw [pick_cons_eq ht]; intro x hx; simp at hx; subst hx; exact hv
                  · rw [pick_cons_eq ht]; simpa using g9
                  rotate_left
                  · rw [if_neg (by omega), pick_cons_ne (by omega)]; simpa using g11
                  all_goals first | rw [pick_cons_ne (by omega)]; assumption
                · intro hh
                  have nnn := nn hh
                  obtain ⟨g1, g2, g3, g4, g5, g6, g7, g8, g9, g10, g11, g12, g13⟩ := hh
                  rw [pick_cons_ne (by omega)] at g5 g6 g7 g10
                  rw [pick_cons_eq ht] at g9
                  rw [if_neg (by omega), pick_cons_ne (by omega)] at g11
                  refine ⟨fun x hx => g1 x (by simp [hx]), (o.mp g2).2, fun x hx => g3 x (by simp [hx]), g4, g5, g6, g7, ?_, ?_, g10, by rw [if_neg (by decide)]; exact g11, g12, g13⟩
                  · rw [nnn]; simp
                  · rw [nnn]; simpa using g9
              · constructor
                · intro hh
                  unfold iLoop at hh
                  rw [if_neg (show ¬ e.type = 33 by omega), if_neg (show ¬ e.type = 18 by omega),
                    if_neg (show ¬ e.type = 30 by omega), if_pos ht, if_neg (by omega), if_pos (by simpa using hv)] at hh
                  simp at hh
                · intro hh
                  have g := hh.nonce4
                  rw [pick_cons_eq ht] at g
                  exact absurd (g e rfl) hv
            · -- InterestLifetime
              have hq : posOf e.type = 6 := by rw [ht]; rfl
              rw [hq] at hlt o nn'
              rw [ht] at nn nn'
              cases hv : readNniValue e.value with
              | some v =>
                have e1 : iLoop f last (e :: es) = iLoop { f with lifetime := v } 6 es := by
                  conv => lhs; unfold iLoop
                  rw [if_neg (show ¬ e.type = 33 by omega), if_neg (show ¬ e.type = 18 by omega),
                    if_neg (show ¬ e.type = 30 by omega), if_neg (show ¬ e.type = 10 by omega), if_pos ht, if_neg (by omega), hv]
                rw [e1, ih _ 6 (by decide) (by decide) (by exact hp)]
                constructor
                · intro hh
                  have nnn := nn' hh
                  obtain ⟨g1, g2, g3, g4, g5, g6, g7, g8, g9, g10, g11, g12, g13⟩ := hh
                  rw [nnn] at g10
                  refine ⟨by simpa [Known, ht] using g1, o.mpr ⟨hlt, g2⟩, by simpa [ht] using g3, g4, ?_, ?_, ?_, ?_, ?_, ?_, ?_, g12, g13⟩
                  rotate_left 5
                  · rw [pick_cons_eq ht]; simp only at g10 ⊢; rw [hv, g10]
                  · rw [if_neg (by omega), pick_cons_ne (by omega)]; simpa using g11
                  all_goals first | rw [pick_cons_ne (by omega)]; assumption
                · intro hh
                  have nnn := nn hh
                  obtain ⟨g1, g2, g3, g4, g5, g6, g7, g8, g9, g10, g11, g12, g13⟩ := hh
                  rw [pick_cons_ne (by omega)] at g5 g6 g7 g8 g9
                  rw [pick_cons_eq ht] at g10
                  rw [if_neg (by omega), pick_cons_ne (by omega)] at g11
                  refine ⟨fun x hx => g1 x (by simp [hx]), (o.mp g2).2, fun x hx => g3 x (by simp [hx]), g4, g5, g6, g7, g8, g9, ?_, by rw [if_neg (by decide)]; exact g11, g12, g13⟩
                  rw [nnn]
                  simp only at g10 ⊢
                  rw [hv] at g10; simpa using g10.symm
              | none =>
                constructor
                · intro hh
                  unfold iLoop at hh
                  rw [if_neg (show ¬ e.type = 33 by omega), if_neg (show ¬ e.type = 18 by omega),
                    if_neg (show ¬ e.type = 30 by omega), if_neg (show ¬ e.type = 10 by omega), if_pos ht, if_neg (by omega), hv] at hh
                  simp at hh
                · intro hh
                  have g := hh.life
                  rw [pick_cons_eq ht] at g
                  simp only at g
                  rw [hv] at g; simp at g
          · constructor
            · intro hh
              exfalso
              unfold iLoop at hh
              rcases hk5 with ht | ht | ht | ht | ht
              · rw [ht] at hlt; simp only [posOf] at hlt
                rw [if_pos ht, if_pos (by simp at hlt; omega)] at hh; simp at hh
              · rw [ht] at hlt; simp only [posOf] at hlt
                rw [if_neg (show ¬ e.type = 33 by omega), if_pos ht, if_pos (by simp at hlt; omega)] at hh; simp at hh
              · rw [ht] at hlt; simp only [posOf] at hlt
                rw [if_neg (show ¬ e.type = 33 by omega), if_neg (show ¬ e.type = 18 by omega), if_pos ht,
                  if_pos (by simp at hlt; omega)] at hh; simp at hh
              · rw [ht] at hlt; simp only [posOf] at hlt
                rw [if_neg (show ¬ e.type = 33 by omega), if_neg (show ¬ e.type = 18 by omega),
                  if_neg (show ¬ e.type = 30 by omega), if_pos ht, if_pos (by simp at hlt; omega)] at hh; simp at hh
              · rw [ht] at hlt; simp only [posOf] at hlt
                rw [if_neg (show ¬ e.type = 33 by omega), if_neg (show ¬ e.type = 18 by omega),
                  if_neg (show ¬ e.type = 30 by omega), if_neg (show ¬ e.type = 10 by omega), if_pos ht,
                  if_pos (by simp at hlt; omega)] at hh; simp at hh
            · intro hh; exact absurd (o.mp hh.ord).1 hlt
      · -- unrecognised
        have hk' := hk
        unfold Known at hk'
        have o : Ord last (((e :: pre).filter (fun e => Known e)).map Raw.type) ↔
            Ord last ((pre.filter (fun e => Known e)).map Raw.type) := by
          rw [List.filter_cons_of_neg (by simpa using hk)]
        by_cases hi : Ignorable e
        · have e1 : iLoop f last (e :: es) = iLoop f last es := by
            conv => lhs; unfold iLoop
            rw [if_neg (show ¬ e.type = 33 by omega), if_neg (show ¬ e.type = 18 by omega),
              if_neg (show ¬ e.type = 30 by omega), if_neg (show ¬ e.type = 10 by omega),
              if_neg (show ¬ e.type = 12 by omega), if_neg (show ¬ e.type = 34 by omega), if_neg h36,
              if_neg (show ¬ isCriticalType e.type = true by rw [isCritical_iff]; exact fun h => h hi),
              if_neg (by simp [hp])]
          rw [e1, ih f last h1 h7 hp]
          constructor
          · rintro ⟨g1, g2, g3, g4, g5, g6, g7, g8, g9, g10, g11, g12, g13⟩
            refine ⟨by simpa [hi] using g1, o.mpr g2, ?_, g4, ?_, ?_, ?_, ?_, ?_, ?_, ?_, g12, g13⟩
            · intro x hx hx'
              rcases List.mem_cons.mp hx with rfl | hx
              · omega
              · exact g3 x hx hx'
            all_goals first | rw [pick_cons_ne (by omega)]; assumption
          · rintro ⟨g1, g2, g3, g4, g5, g6, g7, g8, g9, g10, g11, g12, g13⟩
            rw [pick_cons_ne (by omega)] at g5 g6 g7 g8 g9 g10 g11
            exact ⟨fun x hx => g1 x (by simp [hx]), o.mp g2, fun x hx => g3 x (by simp [hx]), g4, g5, g6, g7, g8, g9, g10, g11, g12, g13⟩
        · constructor
          · intro hh
            exfalso
            unfold Ignorable at hi
            unfold iLoop at hh
            rw [if_neg (show ¬ e.type = 33 by omega), if_neg (show ¬ e.type = 18 by omega),
              if_neg (show ¬ e.type = 30 by omega), if_neg (show ¬ e.type = 10 by omega),
              if_neg (show ¬ e.type = 12 by omega), if_neg (show ¬ e.type = 34 by omega), if_neg h36,
              if_pos (show isCriticalType e.type = true by rw [isCritical_iff]; exact hi)] at hh
            simp at hh
          · intro hh
            rcases hh.known e (by simp) with h | h
            · exact absurd h hk
            · exact absurd h hi

end Ndn.Interest
