import Verif.Dummy.Spec
/-
C147: broadcast links between dummy faces.
-/
namespace Ndn.Dummy
open Spec

@[simp] theorem upd_same {α : Type} (f : Nat → α) (n : Nat) (x : α) : upd f n x n = x := by simp [upd]
theorem upd_other {α : Type} (f : Nat → α) {n m : Nat} (x : α) (h : m ≠ n) : upd f n x m = f m := by simp [upd, h]

/-- The faces and the links agree. -/
private structure Inv (s : Net) : Prop where
  mem : ∀ f l, s.link f = some l ↔ f ∈ s.faces l
  nodup : ∀ l, (s.faces l).Nodup
  two : ∀ l, s.faces l = [] ∨ 2 ≤ (s.faces l).length
  fresh : ∀ l, s.next ≤ l → s.faces l = []

/-- On the same link. -/
private def On (s : Net) (x y : Nat) : Prop := x ≠ y ∧ ∃ l, s.link x = some l ∧ s.link y = some l

private theorem inv_init : Inv Net.init := ⟨by simp [Net.init], by simp [Net.init], by simp [Net.init], by simp [Net.init]⟩

/-- A face on a link is not alone. -/
private theorem Inv.other {s : Net} (h : Inv s) {a l : Nat} (ha : s.link a = some l) : ∃ z, z ≠ a ∧ z ∈ s.faces l := by
  have h1 := (h.mem a l).1 ha
  rcases h.two l with h2 | h2
  · rw [h2] at h1; cases h1
  · match hm : s.faces l, h2 with
    | x :: y :: rest, _ =>
      have hn := h.nodup l
      rw [hm] at hn
      by_cases hx : x = a
      · refine ⟨y, ?_, by simp⟩
        rintro rfl
        subst hx
        simp at hn
      · exact ⟨x, hx, by simp⟩

private theorem Inv.on_some {s : Net} (h : Inv s) (a : Nat) : (∃ z, On s a z) ↔ ∃ l, s.link a = some l := by
  constructor
  · rintro ⟨z, -, l, h1, -⟩; exact ⟨l, h1⟩
  · rintro ⟨l, hl⟩
    obtain ⟨z, h1, h2⟩ := h.other hl
    exact ⟨z, Ne.symm h1, l, hl, (h.mem z l).2 h2⟩

private theorem Inv.join {s : Net} (h : Inv s) {a l : Nat} (ha : s.link a = none) (hl : s.faces l ≠ []) :
    Inv { s with link := upd s.link a (some l), faces := upd s.faces l (s.faces l ++ [a]) } := by
  have hna : ∀ m, a ∉ s.faces m := fun m hm => by rw [(h.mem a m).2 hm] at ha; cases ha
  refine ⟨fun f m => ?_, fun m => ?_, fun m => ?_, fun m hm => ?_⟩
  · dsimp only
    by_cases hf : f = a
    · subst hf
      rw [upd_same]
      by_cases hm : m = l
      · subst hm; simp
      · rw [upd_other _ _ hm]
        constructor
        · intro e; exact absurd (Option.some.inj e).symm hm
        · intro e; exact absurd e (hna m)
    · rw [upd_other _ _ hf, h.mem]
      by_cases hm : m = l
      · subst hm; simp [hf]
      · rw [upd_other _ _ hm]
  · dsimp only
    by_cases hm : m = l
    · subst hm
      rw [upd_same, List.nodup_append]
      refine ⟨h.nodup m, by simp, ?_⟩
      intro x hx y hy e
      simp only [List.mem_singleton] at hy
      subst hy; subst e
      exact hna m hx
    · rw [upd_other _ _ hm]; exact h.nodup m
  · dsimp only
    by_cases hm : m = l
    · subst hm
      rw [upd_same]
      right
      have : (s.faces m).length ≠ 0 := fun e => hl (List.length_eq_zero_iff.1 e)
      simp; omega
    · rw [upd_other _ _ hm]; exact h.two m
  · dsimp only at hm ⊢
    have : m ≠ l := by rintro rfl; exact hl (h.fresh m hm)
    rw [upd_other _ _ this]; exact h.fresh m hm

private theorem Inv.pair {s : Net} (h : Inv s) {a b : Nat} (hab : a ≠ b) (ha : s.link a = none) (hb : s.link b = none) :
    Inv ⟨upd (upd s.link a (some s.next)) b (some s.next), upd s.faces s.next [a, b], s.next + 1⟩ := by
  have hna : ∀ m, a ∉ s.faces m := fun m hm => by rw [(h.mem a m).2 hm] at ha; cases ha
  have hnb : ∀ m, b ∉ s.faces m := fun m hm => by rw [(h.mem b m).2 hm] at hb; cases hb
  have hf0 := h.fresh s.next (Nat.le_refl _)
  refine ⟨fun f m => ?_, fun m => ?_, fun m => ?_, fun m hm => ?_⟩
  · dsimp only
    by_cases hm : m = s.next
    · subst hm
      rw [upd_same]
      by_cases h1 : f = b
      · subst h1; simp
      · rw [upd_other _ _ h1]
        by_cases h2 : f = a
        · subst h2; simp
        · rw [upd_other _ _ h2, h.mem, hf0]; simp [h1, h2]
    · rw [upd_other _ _ hm]
      by_cases h1 : f = b
      · subst h1
        rw [upd_same]
        exact ⟨fun e => absurd (Option.some.inj e).symm hm, fun e => absurd e (hnb m)⟩
      · rw [upd_other _ _ h1]
        by_cases h2 : f = a
        · subst h2
          rw [upd_same]
          exact ⟨fun e => absurd (Option.some.inj e).symm hm, fun e => absurd e (hna m)⟩
        · rw [upd_other _ _ h2, h.mem]
  · dsimp only
    by_cases hm : m = s.next
    · subst hm; rw [upd_same]; simp [hab]
    · rw [upd_other _ _ hm]; exact h.nodup m
  · dsimp only
    by_cases hm : m = s.next
    · subst hm; rw [upd_same]; right; simp
    · rw [upd_other _ _ hm]; exact h.two m
  · dsimp only at hm ⊢
    rw [upd_other _ _ (by omega)]; exact h.fresh m (by omega)

/-- Taking a face off. -/
private theorem Inv.unlink {s : Net} (h : Inv s) (a : Nat) :
    ∃ s', s.unlink a = some s' ∧ Inv s' ∧ ∀ x y, On s' x y ↔ On s x y ∧ x ≠ a ∧ y ≠ a := by
  unfold Net.unlink
  cases ha : s.link a with
  | none =>
    refine ⟨s, rfl, h, fun x y => ⟨fun h1 => ⟨h1, ?_, ?_⟩, fun h1 => h1.1⟩⟩
    · rintro rfl
      obtain ⟨-, l, h2, -⟩ := h1
      rw [ha] at h2; cases h2
    · rintro rfl
      obtain ⟨-, l, -, h2⟩ := h1
      rw [ha] at h2; cases h2
  | some l =>
    have hm := (h.mem a l).1 ha
    dsimp only
    rw [if_pos hm]
    have hnd := h.nodup l
    have hme : ∀ x, x ∈ (s.faces l).erase a ↔ x ≠ a ∧ x ∈ s.faces l := fun x => hnd.mem_erase_iff
    have hlen := List.length_erase_of_mem hm
    have htwo : 2 ≤ (s.faces l).length := by
      rcases h.two l with h2 | h2
      · rw [h2] at hm; cases hm
      · exact h2
    split
    · rename_i b hb
      rw [hb] at hme hlen
      have hba : b ≠ a := ((hme b).1 (by simp)).1
      have hbl : s.link b = some l := (h.mem b l).2 ((hme b).1 (by simp)).2
      have hall : ∀ x, x ∈ s.faces l → x = a ∨ x = b := by
        intro x hx
        by_cases hxa : x = a
        · exact .inl hxa
        · exact .inr (by simpa using (hme x).2 ⟨hxa, hx⟩)
      rw [if_neg hba]
      refine ⟨_, rfl, ⟨fun f m => ?_, fun m => ?_, fun m => ?_, fun m hm' => ?_⟩, fun x y => ?_⟩
      · dsimp only
        by_cases h1 : f = a
        · subst h1
          rw [upd_same]
          by_cases h2 : m = l
          · subst h2; simp
          · rw [upd_other _ _ h2, ← h.mem, ha]
            exact ⟨fun e => (by cases e), fun e => absurd (Option.some.inj e).symm h2⟩
        · rw [upd_other _ _ h1]
          by_cases h3 : f = b
          · subst h3
            rw [upd_same]
            by_cases h2 : m = l
            · subst h2; simp
            · rw [upd_other _ _ h2, ← h.mem, hbl]
              exact ⟨fun e => (by cases e), fun e => absurd (Option.some.inj e).symm h2⟩
          · rw [upd_other _ _ h3, h.mem]
            by_cases h2 : m = l
            · subst h2
              rw [upd_same]
              exact ⟨fun e => by rcases hall f e with e | e <;> contradiction, fun e => by cases e⟩
            · rw [upd_other _ _ h2]
      · dsimp only
        by_cases h2 : m = l
        · subst h2; rw [upd_same]; exact List.nodup_nil
        · rw [upd_other _ _ h2]; exact h.nodup m
      · dsimp only
        by_cases h2 : m = l
        · subst h2; rw [upd_same]; exact .inl rfl
        · rw [upd_other _ _ h2]; exact h.two m
      · dsimp only at hm' ⊢
        by_cases h2 : m = l
        · subst h2; rw [upd_same]
        · rw [upd_other _ _ h2]; exact h.fresh m hm'
      · unfold On
        dsimp only
        constructor
        · rintro ⟨hxy, m, h1, h2⟩
          have key : ∀ z, upd (upd s.link b none) a none z = some m → z ≠ a ∧ s.link z = some m := by
            intro z hz
            by_cases hza : z = a
            · subst hza; rw [upd_same] at hz; cases hz
            · rw [upd_other _ _ hza] at hz
              by_cases hzb : z = b
              · subst hzb; rw [upd_same] at hz; cases hz
              · rw [upd_other _ _ hzb] at hz; exact ⟨hza, hz⟩
          exact ⟨⟨hxy, m, (key x h1).2, (key y h2).2⟩, (key x h1).1, (key y h2).1⟩
        · rintro ⟨⟨hxy, m, h1, h2⟩, hx, hy⟩
          have hml : m ≠ l := by
            rintro rfl
            rcases hall x ((h.mem x m).1 h1) with e | e
            · exact hx e
            · rcases hall y ((h.mem y m).1 h2) with e' | e'
              · exact hy e'
              · exact hxy (e.trans e'.symm)
          have key : ∀ z, z ≠ a → s.link z = some m → upd (upd s.link b none) a none z = some m := by
            intro z hz h3
            rw [upd_other _ _ hz, upd_other _ _ (by rintro rfl; rw [hbl] at h3; exact hml (Option.some.inj h3).symm)]
            exact h3
          exact ⟨hxy, m, key x hx h1, key y hy h2⟩
    · rename_i hnb
      refine ⟨_, rfl, ⟨fun f m => ?_, fun m => ?_, fun m => ?_, fun m hm' => ?_⟩, fun x y => ?_⟩
      · dsimp only
        by_cases h1 : f = a
        · subst h1
          rw [upd_same]
          by_cases h2 : m = l
          · subst h2; rw [upd_same, hme]; simp
          · rw [upd_other _ _ h2, ← h.mem, ha]
            exact ⟨fun e => (by cases e), fun e => absurd (Option.some.inj e).symm h2⟩
        · rw [upd_other _ _ h1, h.mem]
          by_cases h2 : m = l
          · subst h2; rw [upd_same, hme]; simp [h1]
          · rw [upd_other _ _ h2]
      · dsimp only
        by_cases h2 : m = l
        · subst h2; rw [upd_same]; exact hnd.erase a
        · rw [upd_other _ _ h2]; exact h.nodup m
      · dsimp only
        by_cases h2 : m = l
        · subst h2; rw [upd_same]
          right
          match hm2 : (s.faces m).erase a with
          | [] => rw [hm2] at hlen; simp at hlen; omega
          | [b] => exact absurd hm2 (hnb b)
          | _ :: _ :: _ => simp
        · rw [upd_other _ _ h2]; exact h.two m
      · dsimp only at hm' ⊢
        by_cases h2 : m = l
        · subst h2; rw [h.fresh m hm'] at hm; cases hm
        · rw [upd_other _ _ h2]; exact h.fresh m hm'
      · unfold On
        dsimp only
        have key : ∀ z m, upd s.link a none z = some m ↔ z ≠ a ∧ s.link z = some m := by
          intro z m
          by_cases hz : z = a
          · subst hz; rw [upd_same]; simp
          · rw [upd_other _ _ hz]; simp [hz]
        simp only [key]
        constructor
        · rintro ⟨h1, m, ⟨h2, h3⟩, h4, h5⟩; exact ⟨⟨h1, m, h3, h5⟩, h2, h4⟩
        · rintro ⟨⟨h1, m, h3, h5⟩, h2, h4⟩; exact ⟨h1, m, ⟨h2, h3⟩, h4, h5⟩

/-- Linking. -/
private theorem Inv.linkTo {s : Net} (h : Inv s) {a b : Nat} (hab : a ≠ b) :
    ((s.linkTo a b).1 = false ↔ ¬ On s a b ∧ (∃ z, On s a z) ∧ ∃ z, On s b z) ∧ Inv (s.linkTo a b).2 ∧
    ((s.linkTo a b).1 = false → (s.linkTo a b).2 = s) ∧
    ((s.linkTo a b).1 = true → ∀ x y, On (s.linkTo a b).2 x y ↔
      x ≠ y ∧ (On s x y ∨ ((x = a ∨ x = b ∨ On s a x ∨ On s b x) ∧ (y = a ∨ y = b ∨ On s a y ∨ On s b y)))) := by
  rw [h.on_some, h.on_some]
  have onl : ∀ {c l}, s.link c = some l → ∀ z, On s c z ↔ z ≠ c ∧ s.link z = some l := by
    intro c l hc z
    unfold On
    rw [hc]
    constructor
    · rintro ⟨h1, m, h2, h3⟩; rw [Option.some.inj h2]; exact ⟨Ne.symm h1, h3⟩
    · rintro ⟨h1, h2⟩; exact ⟨Ne.symm h1, l, rfl, h2⟩
  have onn : ∀ {c}, s.link c = none → ∀ z, ¬ On s c z := by
    rintro c hc z ⟨-, l, h1, -⟩; rw [hc] at h1; cases h1
  have joined : ∀ {c d l : Nat}, s.link c = none → s.link d = some l → ∀ x y,
      (x ≠ y ∧ ∃ m, upd s.link c (some l) x = some m ∧ upd s.link c (some l) y = some m) ↔
        x ≠ y ∧ (On s x y ∨ ((x = c ∨ s.link x = some l) ∧ (y = c ∨ s.link y = some l))) := by
    intro c d l hc hd x y
    refine and_congr_right fun hxy => ?_
    have key : ∀ z m, upd s.link c (some l) z = some m ↔ (z = c ∧ m = l) ∨ s.link z = some m := by
      intro z m
      by_cases hz : z = c
      · subst hz; rw [upd_same, hc]; simp [eq_comm]
      · rw [upd_other _ _ hz]; simp [hz]
    simp only [key]
    constructor
    · rintro ⟨m, ⟨rfl, rfl⟩ | h1, ⟨rfl, h3⟩ | h2⟩
      · exact absurd rfl hxy
      · exact .inr ⟨.inl rfl, .inr h2⟩
      · subst h3; exact .inr ⟨.inr h1, .inl rfl⟩
      · exact .inl ⟨hxy, m, h1, h2⟩
    · rintro (⟨-, m, h1, h2⟩ | ⟨h1, h2⟩)
      · exact ⟨m, .inr h1, .inr h2⟩
      · refine ⟨l, ?_, ?_⟩
        · rcases h1 with rfl | h1
          · exact .inl ⟨rfl, rfl⟩
          · exact .inr h1
        · rcases h2 with rfl | h2
          · exact .inl ⟨rfl, rfl⟩
          · exact .inr h2
  unfold Net.linkTo
  cases ha : s.link a with
  | some l =>
    cases hb : s.link b with
    | some l' =>
      dsimp only
      have hon : On s a b ↔ l = l' := by
        rw [onl ha, hb]
        constructor
        · rintro ⟨-, h2⟩; exact (Option.some.inj h2).symm
        · rintro rfl; exact ⟨Ne.symm hab, rfl⟩
      refine ⟨?_, h, fun _ => rfl, ?_⟩
      · rw [hon]; simp
      · intro hl x y
        have hl : l = l' := by simpa using hl
        subst hl
        have hin : ∀ z, (z = a ∨ z = b ∨ On s a z ∨ On s b z) → s.link z = some l := by
          rintro z (rfl | rfl | h1 | h1)
          · exact ha
          · exact hb
          · exact ((onl ha z).1 h1).2
          · exact ((onl hb z).1 h1).2
        constructor
        · intro h1; exact ⟨h1.1, .inl h1⟩
        · rintro ⟨h1, h2 | ⟨h2, h3⟩⟩
          · exact h2
          · exact ⟨h1, l, hin x h2, hin y h3⟩
    | none =>
      dsimp only
      refine ⟨by simp, h.join hb (fun e => by have := (h.mem a l).1 ha; rw [e] at this; cases this), by simp, fun _ x y => ?_⟩
      unfold On
      dsimp only
      rw [joined hb ha]
      have : ∀ z, (z = b ∨ s.link z = some l) ↔ (z = a ∨ z = b ∨ On s a z ∨ On s b z) := by
        intro z
        rw [onl ha]
        have := onn hb z
        constructor
        · rintro (h1 | h1)
          · exact .inr (.inl h1)
          · by_cases hz : z = a
            · exact .inl hz
            · exact .inr (.inr (.inl ⟨hz, h1⟩))
        · rintro (rfl | h1 | h1 | h1)
          · exact .inr ha
          · exact .inl h1
          · exact .inr h1.2
          · contradiction
      rw [this, this]
      rfl
  | none =>
    cases hb : s.link b with
    | some l =>
      dsimp only
      refine ⟨by simp, h.join ha (fun e => by have := (h.mem b l).1 hb; rw [e] at this; cases this), by simp, fun _ x y => ?_⟩
      unfold On
      dsimp only
      rw [joined ha hb]
      have : ∀ z, (z = a ∨ s.link z = some l) ↔ (z = a ∨ z = b ∨ On s a z ∨ On s b z) := by
        intro z
        rw [onl hb]
        have := onn ha z
        constructor
        · rintro (h1 | h1)
          · exact .inl h1
          · by_cases hz : z = b
            · exact .inr (.inl hz)
            · exact .inr (.inr (.inr ⟨hz, h1⟩))
        · rintro (h1 | rfl | h1 | h1)
          · exact .inl h1
          · exact .inr hb
          · contradiction
          · exact .inr h1.2
      rw [this, this]
      rfl
    | none =>
      dsimp only
      refine ⟨by simp, h.pair hab ha hb, by simp, fun _ x y => ?_⟩
      have hfr : ∀ z, s.link z ≠ some s.next := fun z hz => by
        have := (h.mem z _).1 hz
        rw [h.fresh _ (Nat.le_refl _)] at this; cases this
      have key : ∀ z m, upd (upd s.link a (some s.next)) b (some s.next) z = some m ↔ ((z = a ∨ z = b) ∧ m = s.next) ∨ s.link z = some m := by
        intro z m
        by_cases h1 : z = b
        · subst h1; rw [upd_same, hb]; simp [eq_comm]
        · rw [upd_other _ _ h1]
          by_cases h2 : z = a
          · subst h2; rw [upd_same, ha]; simp [eq_comm]
          · rw [upd_other _ _ h2]; simp [h1, h2]
      have na := onn ha
      have nb := onn hb
      unfold On at na nb ⊢
      dsimp only
      refine and_congr_right fun hxy => ?_
      simp only [key]
      constructor
      · rintro ⟨m, ⟨h1, rfl⟩ | h1, ⟨h2, h3⟩ | h2⟩
        · right
          refine ⟨?_, ?_⟩
          · rcases h1 with h1 | h1
            · exact .inl h1
            · exact .inr (.inl h1)
          · rcases h2 with h2 | h2
            · exact .inl h2
            · exact .inr (.inl h2)
        · exact absurd h2 (hfr y)
        · subst h3; exact absurd h1 (hfr x)
        · exact .inl ⟨hxy, m, h1, h2⟩
      · rintro (⟨-, m, h1, h2⟩ | ⟨h1, h2⟩)
        · exact ⟨m, .inr h1, .inr h2⟩
        · refine ⟨s.next, .inl ⟨?_, rfl⟩, .inl ⟨?_, rfl⟩⟩
          · rcases h1 with h1 | h1 | h1 | h1
            · exact .inl h1
            · exact .inr h1
            · exact absurd h1 (na x)
            · exact absurd h1 (nb x)
          · rcases h2 with h2 | h2 | h2 | h2
            · exact .inl h2
            · exact .inr h2
            · exact absurd h2 (na y)
            · exact absurd h2 (nb y)

private theorem run_snoc (ops : List LOp) (op : LOp) (s : Net) :
    Net.run (ops ++ [op]) s = (Net.run ops s).bind fun t => (t.step op).map (·.2) := by
  induction ops generalizing s with
  | nil => simp only [List.nil_append, Net.run, Option.bind_some]; cases s.step op <;> rfl
  | cons o ops ih =>
    simp only [List.cons_append, Net.run]
    cases s.step o with
    | none => rfl
    | some r => exact ih r.2

/-- The state after a history, and who hears whom. -/
private theorem reach : ∀ ops : List LOp, NoSelf ops.reverse →
    ∃ s, Net.run ops.reverse Net.init = some s ∧ Inv s ∧ ∀ x y, On s x y ↔ Hears ops x y
  | [], _ => ⟨Net.init, rfl, inv_init, fun x y => by simp [On, Net.init, Hears]⟩
  | op :: ops, h => by
    obtain ⟨s, h1, h2, h3⟩ := reach ops (fun a ha => h a (by simp at ha ⊢; exact .inl ha))
    rw [List.reverse_cons, run_snoc, h1]
    simp only [Option.bind_some]
    cases op with
    | unlink a =>
      obtain ⟨s', h4, h5, h6⟩ := h2.unlink a
      refine ⟨s', by simp [Net.step, h4], h5, fun x y => ?_⟩
      rw [h6, h3]; rfl
    | linkTo a b =>
      have hab : a ≠ b := by rintro rfl; exact h a (by simp)
      obtain ⟨h4, h5, h6, h7⟩ := h2.linkTo hab
      refine ⟨(s.linkTo a b).2, rfl, h5, fun x y => ?_⟩
      simp only [h3] at h4 h7
      unfold Hears
      cases hf : (s.linkTo a b).1 with
      | false => rw [if_pos (h4.1 hf), h6 hf, h3]
      | true => rw [if_neg (fun hc => by rw [h4.2 hc] at hf; cases hf), h7 hf]

/-- The loop, when the callbacks leave the links alone or call what does not change this one. -/
private theorem loop_quiet (a l : Nat) (cb : Nat → List LOp) (P : Net → Prop)
    (hp : ∀ b s, b ≠ a → P s → ∃ s', Net.react l (cb b) s = some s' ∧ P s') :
    ∀ (fs : List Nat) (s : Net), P s → ∃ s', Net.loop a l cb fs s = some (fs.filter (· ≠ a), s') ∧ P s'
  | [], s, h => ⟨s, rfl, h⟩
  | b :: fs, s, h => by
    by_cases hb : b = a
    · obtain ⟨s', h1, h2⟩ := loop_quiet a l cb P hp fs s h
      exact ⟨s', by rw [Net.loop, if_pos hb, h1, List.filter_cons_of_neg (by simp [hb])], h2⟩
    · obtain ⟨s1, h1, h2⟩ := hp b s hb h
      obtain ⟨s', h3, h4⟩ := loop_quiet a l cb P hp fs s1 h2
      refine ⟨s', ?_, h4⟩
      rw [Net.loop, if_neg hb, h1]
      dsimp only
      rw [h3, List.filter_cons_of_pos (by simp [hb])]
      rfl

private theorem Inv.send {s : Net} (h : Inv s) (a : Nat) (cb : Nat → List LOp) (P : Net → Prop) (h0 : P s)
    (hp : ∀ l b t, s.link a = some l → b ≠ a → P t → ∃ t', Net.react l (cb b) t = some t' ∧ P t') :
    ∃ got s', s.send a cb = some (got, s') ∧ P s' ∧ got.Nodup ∧ ∀ b, b ∈ got ↔ On s a b := by
  unfold Net.send
  cases ha : s.link a with
  | none =>
    refine ⟨[], s, rfl, h0, List.nodup_nil, fun b => ⟨fun e => (by cases e), ?_⟩⟩
    rintro ⟨-, l, h1, -⟩
    rw [ha] at h1; cases h1
  | some l =>
    obtain ⟨s', h1, h2⟩ := loop_quiet a l cb P (fun b t => hp l b t ha) (s.faces l) s h0
    refine ⟨_, s', h1, h2, (h.nodup l).filter _, fun b => ?_⟩
    rw [List.mem_filter]
    simp only [ne_eq, decide_not, Bool.not_eq_eq_eq_not, Bool.not_true, decide_eq_false_iff_not]
    unfold On
    rw [ha, ← h.mem]
    constructor
    · rintro ⟨h3, h4⟩; exact ⟨Ne.symm h4, l, rfl, h3⟩
    · rintro ⟨h3, m, h4, h5⟩; rw [← Option.some.inj h4] at h5; exact ⟨h5, Ne.symm h3⟩

/-- What a program sees of the links after calls in which no face is linked to itself: nothing is undefined; a packet that a face sends
is received once by each face that is to hear it and by no other; linking throws exactly if the faces are on different links; unlinking
never fails; and the next calls find the links as described again. -/
theorem C147_links_partial (ops : List LOp) (h : NoSelf ops) :
    ∃ s, Net.run ops Net.init = some s ∧
      (∀ a, ∃ got, s.send a (fun _ => []) = some (got, s) ∧ got.Nodup ∧ ∀ b, b ∈ got ↔ Hears ops.reverse a b) ∧
      (∀ a b, a ≠ b → ((s.linkTo a b).1 = false ↔ Conflict ops.reverse a b)) ∧
      ∀ a, (s.unlink a).isSome := by
  obtain ⟨s, h1, h2, h3⟩ := reach ops.reverse (by rw [List.reverse_reverse]; exact h)
  rw [List.reverse_reverse] at h1
  refine ⟨s, h1, fun a => ?_, fun a b hab => ?_, fun a => ?_⟩
  · obtain ⟨got, s', h4, h5, h6, h7⟩ := h2.send a (fun _ => []) (· = s) rfl (fun l b t _ _ ht => ⟨t, rfl, ht⟩)
    subst h5
    exact ⟨got, h4, h6, fun b => by rw [h7, h3]⟩
  · have := (h2.linkTo hab).1
    simp only [h3] at this
    exact this
  · obtain ⟨s', h4, -⟩ := h2.unlink a
    rw [h4]; rfl

/-- Hearing is mutual, nobody hears themselves, and faces heard by the same face hear each other. -/
theorem C147_broadcast (ops : List LOp) (h : NoSelf ops) (x y z : Nat) :
    ¬ Hears ops.reverse x x ∧ (Hears ops.reverse x y → Hears ops.reverse y x) ∧
    (Hears ops.reverse x y → Hears ops.reverse x z → y ≠ z → Hears ops.reverse y z) := by
  obtain ⟨s, h1, h2, h3⟩ := reach ops.reverse (by rw [List.reverse_reverse]; exact h)
  simp only [← h3]
  refine ⟨fun h4 => h4.1 rfl, ?_, ?_⟩
  · rintro ⟨h4, l, h5, h6⟩; exact ⟨Ne.symm h4, l, h6, h5⟩
  · rintro ⟨h4, l, h5, h6⟩ ⟨h7, m, h8, h9⟩ h10
    rw [h5] at h8
    exact ⟨h10, l, h6, by rw [Option.some.inj h8]; exact h9⟩

/-- The faces an operation is called on. -/
def LOp.on : LOp → List Nat
  | .linkTo a b => [a, b]
  | .unlink a => [a]

/-- An operation on faces outside of the link leaves it alone. -/
private theorem Inv.step_off {s : Net} (h : Inv s) {op : LOp} {l a : Nat} (ha : s.link a = some l) (hs : ∀ c, op ≠ .linkTo c c)
    (ho : ∀ c ∈ op.on, s.link c ≠ some l) :
    ∃ r, s.step op = some r ∧ Inv r.2 ∧ r.2.faces l = s.faces l := by
  have hl : l < s.next := by
    refine Nat.lt_of_not_le fun hle => ?_
    have := (h.mem a l).1 ha
    rw [h.fresh l hle] at this; cases this
  cases op with
  | unlink c =>
    obtain ⟨s', h1, h2, -⟩ := h.unlink c
    refine ⟨(true, s'), by simp [Net.step, h1], h2, ?_⟩
    have hc := ho c (by simp [LOp.on])
    unfold Net.unlink at h1
    cases hcl : s.link c with
    | none => rw [hcl] at h1; cases h1; rfl
    | some m =>
      rw [hcl] at h1 hc
      have hml : l ≠ m := by rintro rfl; exact hc rfl
      dsimp only at h1
      split at h1
      · split at h1
        · split at h1
          · cases h1
          · cases h1; exact upd_other _ _ hml
        · cases h1; exact upd_other _ _ hml
      · cases h1
  | linkTo c d =>
    have hcd : c ≠ d := by rintro rfl; exact hs c rfl
    have hc := ho c (by simp [LOp.on])
    have hd := ho d (by simp [LOp.on])
    refine ⟨s.linkTo c d, rfl, (h.linkTo hcd).2.1, ?_⟩
    unfold Net.linkTo
    cases hcl : s.link c with
    | none =>
      cases hdl : s.link d with
      | none => exact upd_other _ _ (by omega)
      | some m =>
        rw [hdl] at hd
        exact upd_other _ _ (by rintro rfl; exact hd rfl)
    | some m =>
      cases hdl : s.link d with
      | none =>
        rw [hcl] at hc
        exact upd_other _ _ (by rintro rfl; exact hc rfl)
      | some m' => rfl

/-- Callbacks that run while a packet is delivered can link and unlink faces outside of this link: it is still received by the same
faces, once each. -/
theorem C147_callbacks (ops : List LOp) (h : NoSelf ops) (a : Nat) (cb : Nat → List LOp)
    (hcb : ∀ b, NoSelf (cb b) ∧ ∀ op ∈ cb b, ∀ c ∈ op.on, c ≠ a ∧ ¬ Hears ops.reverse a c) :
    ∃ s got s', Net.run ops Net.init = some s ∧ s.send a cb = some (got, s') ∧ got.Nodup ∧ ∀ b, b ∈ got ↔ Hears ops.reverse a b := by
  obtain ⟨s, h1, h2, h3⟩ := reach ops.reverse (by rw [List.reverse_reverse]; exact h)
  rw [List.reverse_reverse] at h1
  have key : ∀ l, s.link a = some l → ∀ (os : List LOp) (t : Net), NoSelf os → (∀ op ∈ os, ∀ c ∈ op.on, c ≠ a ∧ ¬ Hears ops.reverse a c) →
      Inv t → t.faces l = s.faces l → ∃ t', Net.react l os t = some t' ∧ Inv t' ∧ t'.faces l = s.faces l := by
    intro l hl os
    induction os with
    | nil => intro t _ _ ht hf; exact ⟨t, rfl, ht, hf⟩
    | cons op os ih =>
      intro t hn ho ht hf
      have hoff : ∀ c ∈ op.on, t.link c ≠ some l := by
        intro c hc hcl
        obtain ⟨h5, h6⟩ := ho op (by simp) c hc
        have h7 := (ht.mem c l).1 hcl
        rw [hf, ← h2.mem] at h7
        exact h6 ((h3 a c).1 ⟨Ne.symm h5, l, hl, h7⟩)
      obtain ⟨r, h5, h6, h7⟩ := ht.step_off (a := a) ((ht.mem a l).2 (by rw [hf]; exact (h2.mem a l).1 hl))
        (fun c e => hn c (by rw [e]; simp)) hoff
      obtain ⟨t', h8, h9, h10⟩ := ih r.2 (fun c hc => hn c (by simp [hc])) (fun o ho' => ho o (by simp [ho'])) h6 (h7.trans hf)
      refine ⟨t', ?_, h9, h10⟩
      rw [Net.react, h5]
      dsimp only
      rw [if_pos h7, h8]
  obtain ⟨got, s', h4, -, h6, h7⟩ := h2.send a cb (fun t => Inv t ∧ ∀ l, s.link a = some l → t.faces l = s.faces l) ⟨h2, fun _ _ => rfl⟩
    (fun l b t hl _ ht => by
      obtain ⟨t', h8, h9, h10⟩ := key l hl (cb b) t (hcb b).1 (hcb b).2 ht.1 (ht.2 l hl)
      refine ⟨t', h8, h9, fun m hm => ?_⟩
      rw [hl] at hm
      cases hm
      exact h10)
  exact ⟨s, got, s', h1, h4, h6, fun b => by rw [h7, h3]⟩

/-- The claim for all calls. -/
def C147_self_claim : Prop := ∀ ops : List LOp, (Net.run ops Net.init).isSome

/-- A face can be linked to itself; when it is then unlinked or destroyed, `unlink` resets its own pointer to the link through the
vector and uses it in the next statement: a null pointer is dereferenced. -/
theorem C147_self_counterexample : ¬ C147_self_claim := by
  intro h
  have := h [.linkTo 0 0, .unlink 0]
  revert this
  decide

/-- The claim for all callbacks. -/
def C147_callbacks_claim : Prop := ∀ (ops : List LOp) (a : Nat) (cb : Nat → List LOp) (s : Net), NoSelf ops → (∀ b, NoSelf (cb b)) →
  Net.run ops Net.init = some s → (s.send a cb).isSome

/-- A callback of a face that receives a packet unlinks this face (or destroys it, or links another face to it): the vector changes
while the loop that delivers the packet goes over it, with iterators that are no longer valid. -/
theorem C147_callbacks_counterexample : ¬ C147_callbacks_claim := by
  intro h
  have := h [.linkTo 0 1] 0 (fun b => if b = 1 then [.unlink 1] else []) _ (by intro a ha; simp at ha; omega)
    (by intro b a ha; split at ha <;> simp at ha) rfl
  revert this
  decide

/-- Three faces on one link, one on another; a packet from the second. -/
example : ((Net.run [.linkTo 0 1, .linkTo 2 1, .linkTo 3 4, .unlink 0] Net.init).bind fun s => (s.send 1 fun _ => []).map (·.1)) = some [2] ∧
    ((Net.run [.linkTo 0 1, .linkTo 2 1, .linkTo 3 4] Net.init).bind fun s => (s.send 1 fun _ => []).map (·.1)) = some [0, 2] ∧
    ((Net.run [.linkTo 0 1, .linkTo 2 1, .linkTo 3 4] Net.init).map fun s => (s.linkTo 0 3).1) = some false ∧
    ((Net.run [.linkTo 0 1, .linkTo 2 1] Net.init).bind fun s => (s.send 1 fun b => if b = 0 then [.linkTo 3 4, .unlink 3] else []).map (·.1)) =
      some [0, 2] := by decide

example : NoSelf [.linkTo 0 1, .linkTo 2 1, .linkTo 3 4, .unlink 0] := by
  intro a ha
  simp at ha
  omega

end Ndn.Dummy
