import Verif.Regex.Spec
/- The compiler accepts exactly the texts of well-formed expressions. -/
namespace Ndn.Regex
open Spec

variable {α : Type}

/-- Balance inside `d` open brackets. -/
def BalD (l r : UInt8) (d : Nat) (x : Bytes) : Prop := (∀ p, p <+: x → p.count r ≤ p.count l + d) ∧ x.count r = x.count l + d

theorem bal_iff (l r : UInt8) (x : Bytes) : Bal l r x ↔ BalD l r 0 x := by
  unfold Bal BalD
  simp only [Nat.add_zero]
  exact ⟨fun h => ⟨h.1, h.2.symm⟩, fun h => ⟨h.1, h.2.symm⟩⟩

theorem balD_nil {l r : UInt8} {d : Nat} : BalD l r d [] ↔ d = 0 := by
  unfold BalD
  simp only [List.prefix_nil, List.count_nil]
  constructor
  · intro h; have := h.2; omega
  · rintro rfl; exact ⟨by rintro p rfl; simp, rfl⟩

theorem balD_cons {l r c : UInt8} {d : Nat} {x : Bytes} (h : l ≠ r) : BalD l r d (c :: x) ↔
    (if c = l then BalD l r (d + 1) x else if c = r then d ≠ 0 ∧ BalD l r (d - 1) x else BalD l r d x) := by
  unfold BalD
  have key : (∀ p, p <+: c :: x → p.count r ≤ p.count l + d) ↔ ∀ p, p <+: x → (c :: p).count r ≤ (c :: p).count l + d := by
    constructor
    · intro h p hp; exact h (c :: p) (by rw [List.cons_prefix_cons]; exact ⟨rfl, hp⟩)
    · intro h p hp
      cases p with
      | nil => simp
      | cons y p => rw [List.cons_prefix_cons] at hp; rw [hp.1]; exact h p hp.2
  rw [key]
  simp only [List.count_cons]
  by_cases h1 : c = l
  · rw [if_pos h1]
    have h2 : (c == r) = false := by rw [h1]; simpa using h
    have h3 : (c == l) = true := by simpa using h1
    simp only [h2, h3]
    constructor
    · intro hh; refine ⟨fun p hp => ?_, ?_⟩
      · have := hh.1 p hp; simp at this; omega
      · have := hh.2; simp at this; omega
    · intro hh; refine ⟨fun p hp => ?_, ?_⟩
      · have := hh.1 p hp; simp; omega
      · have := hh.2; simp; omega
  · rw [if_neg h1]
    have h3 : (c == l) = false := by simpa using h1
    by_cases h2 : c = r
    · rw [if_pos h2]
      have h4 : (c == r) = true := by simpa using h2
      simp only [h4, h3]
      constructor
      · intro hh
        have h0 := hh.1 [] (List.nil_prefix)
        simp at h0
        refine ⟨by omega, fun p hp => ?_, ?_⟩
        · have := hh.1 p hp; simp at this; omega
        · have := hh.2; simp at this; omega
      · intro hh; refine ⟨fun p hp => ?_, ?_⟩
        · have := hh.2.1 p hp; simp; omega
        · have := hh.2.2; simp; omega
    · rw [if_neg h2]
      have h4 : (c == r) = false := by simpa using h2
      simp [h4, h3]

theorem sub_iff {l r : UInt8} (hlr : l ≠ r) (d : Nat) (s x rest : Bytes) :
    sub l r (d + 1) s = some (x, rest) ↔ s = x ++ r :: rest ∧ BalD l r d x := by
  induction s generalizing d x with
  | nil => simp [sub]
  | cons c s ih =>
    unfold sub
    have hm : ∀ e, (sub l r (e + 1) s).map (fun y => (c :: y.1, y.2)) = some (x, rest) ↔ ∃ x', x = c :: x' ∧ s = x' ++ r :: rest ∧ BalD l r e x' := by
      intro e
      simp only [Option.map_eq_some_iff, Prod.exists, Prod.mk.injEq]
      constructor
      · rintro ⟨a, b, h1, h2, rfl⟩; exact ⟨a, h2.symm, (ih e a).1 h1⟩
      · rintro ⟨x', rfl, h⟩; exact ⟨x', rest, (ih e x').2 h, rfl, rfl⟩
    by_cases h1 : c = l
    · rw [if_pos h1, hm]
      constructor
      · rintro ⟨x', rfl, h2, h3⟩
        refine ⟨by simp [h2], ?_⟩
        rw [balD_cons hlr, if_pos h1]; exact h3
      · rintro ⟨h2, h3⟩
        cases x with
        | nil => simp at h2; exact absurd (h1 ▸ h2.1) hlr
        | cons y x =>
          simp at h2
          rw [balD_cons hlr, if_pos (h2.1 ▸ h1)] at h3
          exact ⟨x, by rw [h2.1], h2.2, h3⟩
    · rw [if_neg h1]
      by_cases h2 : c = r
      · rw [if_pos h2]
        cases d with
        | zero =>
          simp only [Nat.zero_add, if_true, Option.some.injEq, Prod.mk.injEq]
          constructor
          · rintro ⟨rfl, rfl⟩; exact ⟨by simp [h2], balD_nil.2 rfl⟩
          · rintro ⟨h3, h4⟩
            cases x with
            | nil => simp at h3; exact ⟨rfl, h3.2⟩
            | cons y x =>
              simp at h3
              rw [balD_cons hlr, if_neg (h3.1 ▸ h1), if_pos (h3.1 ▸ h2)] at h4
              exact absurd rfl h4.1
        | succ d =>
          have e : ¬ (d + 1 + 1 = 1) := by omega
          rw [if_neg e]
          have e2 : d + 1 + 1 - 1 = d + 1 := by omega
          rw [e2, hm]
          constructor
          · rintro ⟨x', rfl, h3, h4⟩
            refine ⟨by simp [h3], ?_⟩
            rw [balD_cons hlr, if_neg h1, if_pos h2]; exact ⟨by omega, h4⟩
          · rintro ⟨h3, h4⟩
            cases x with
            | nil => rw [balD_nil] at h4; omega
            | cons y x =>
              simp at h3
              rw [balD_cons hlr, if_neg (h3.1 ▸ h1), if_pos (h3.1 ▸ h2)] at h4
              exact ⟨x, by rw [h3.1], h3.2, h4.2⟩
      · rw [if_neg h2, hm]
        constructor
        · rintro ⟨x', rfl, h3, h4⟩
          refine ⟨by simp [h3], ?_⟩
          rw [balD_cons hlr, if_neg h1, if_neg h2]; exact h4
        · rintro ⟨h3, h4⟩
          cases x with
          | nil => simp at h3; exact absurd h3.1 h2
          | cons y x =>
            simp at h3
            rw [balD_cons hlr, if_neg (h3.1 ▸ h1), if_neg (h3.1 ▸ h2)] at h4
            exact ⟨x, by rw [h3.1], h3.2, h4⟩

theorem sub_one_iff {l r : UInt8} (hlr : l ≠ r) (s x rest : Bytes) : sub l r 1 s = some (x, rest) ↔ s = x ++ r :: rest ∧ Bal l r x := by
  rw [bal_iff]; exact sub_iff hlr 0 s x rest

/-! ### Quantifiers -/

theorem toBrace_iff (s x rest : Bytes) : toBrace s = some (x, rest) ↔ ∃ y, x = y ++ [125] ∧ s = x ++ rest ∧ 125 ∉ y := by
  induction s generalizing x with
  | nil =>
    simp only [toBrace]
    constructor
    · intro h; simp at h
    · rintro ⟨y, rfl, h, _⟩; simp at h
  | cons c s ih =>
    unfold toBrace
    split
    · rename_i h
      simp only [Option.some.injEq, Prod.mk.injEq]
      constructor
      · rintro ⟨rfl, rfl⟩; exact ⟨[], by simp [h], by simp, by simp⟩
      · rintro ⟨y, rfl, h1, h2⟩
        cases y with
        | nil => simp at h1; simp [h1]
        | cons z y => simp at h1; rw [← h1.1, h] at h2; simp at h2
    · rename_i h
      simp only [Option.map_eq_some_iff, Prod.exists, Prod.mk.injEq]
      constructor
      · rintro ⟨a, b, h1, rfl, rfl⟩
        obtain ⟨y, rfl, h2, h3⟩ := (ih a).1 h1
        exact ⟨c :: y, by simp, by simp [h2], by simp [h3, Ne.symm h]⟩
      · rintro ⟨y, rfl, h1, h2⟩
        cases y with
        | nil => simp at h1; exact absurd h1.1 h
        | cons z y =>
          simp at h1 h2
          exact ⟨y ++ [125], rest, (ih _).2 ⟨y, rfl, by simp [h1.2], h2.2⟩, by simp [h1.1], rfl⟩

theorem digit_iff (c : UInt8) : isDigit c = true ↔ 48 ≤ c ∧ c ≤ 57 := by unfold isDigit; simp

theorem digits_ne {ds : Bytes} (h : ∀ c ∈ ds, 48 ≤ c ∧ c ≤ 57) (x : UInt8) (hx : isDigit x = false) : x ∉ ds := by
  intro hm; have := (digit_iff x).2 (h x hm); rw [hx] at this; simp at this

theorem takeWhile_digits {ds rest : Bytes} (h : ∀ c ∈ ds, 48 ≤ c ∧ c ≤ 57) (hr : rest = [] ∨ ∃ c r, rest = c :: r ∧ isDigit c = false) :
    (ds ++ rest).takeWhile isDigit = ds ∧ (ds ++ rest).dropWhile isDigit = rest := by
  induction ds with
  | nil =>
    rcases hr with rfl | ⟨c, r, rfl, hc⟩
    · simp
    · simp [List.takeWhile_cons, List.dropWhile_cons, hc]
  | cons d ds ih =>
    have hd : isDigit d = true := (digit_iff d).2 (h d (by simp))
    have := ih (fun c hc => h c (by simp [hc]))
    simp [List.takeWhile_cons, List.dropWhile_cons, hd, this]

theorem stoul_num {ds : Bytes} (h : Num ds) : stoul ds = some (number ds) := by unfold stoul; rw [if_pos h.2.2]

theorem all_digits {ds : Bytes} (h : Num ds) : ds.all isDigit = true := List.all_eq_true.2 fun c hc => (digit_iff c).2 (h.2.1 c hc)

theorem parseRep_brace (x : Bytes) : parseRep (123 :: x ++ [125]) = braces x := by
  cases x with
  | nil => rfl
  | cons a x =>
    show braces ((a :: x ++ [125]).dropLast) = _
    rw [List.dropLast_concat]

theorem parseRep_print {q : Q} (h : q.WF) : parseRep q.print = some (q.min, q.max) := by
  cases q with
  | one => rfl
  | opt => rfl
  | star => rfl
  | plus => rfl
  | exact n =>
    have h : Num n := h
    unfold Q.print
    rw [parseRep_brace]
    unfold braces
    have e := takeWhile_digits (rest := []) h.2.1 (Or.inl rfl)
    rw [List.append_nil] at e
    simp only [e.1, e.2, h.1, if_false, stoul_num h]
    rfl
  | atMost m =>
    have h : Num m := h
    have : (Q.atMost m).print = 123 :: (44 :: m) ++ [125] := by simp [Q.print]
    rw [this, parseRep_brace]
    unfold braces
    have e := takeWhile_digits (ds := []) (rest := 44 :: m) (by simp) (Or.inr ⟨44, m, rfl, by decide⟩)
    simp only [List.nil_append] at e
    simp only [e.1, e.2, all_digits h, h.1, stoul_num h, and_self, if_true, if_false]
    rfl
  | atLeast n =>
    have h : Num n := h
    have : (Q.atLeast n).print = 123 :: (n ++ [44]) ++ [125] := by simp [Q.print]
    rw [this, parseRep_brace]
    unfold braces
    have e := takeWhile_digits (rest := [44]) h.2.1 (Or.inr ⟨44, [], rfl, by decide⟩)
    simp only [e.1, e.2, h.1, stoul_num h, List.all_nil, and_self, if_true, if_false]
    rfl
  | between n m =>
    obtain ⟨h1, h2, h3⟩ : Num n ∧ Num m ∧ number n ≤ number m := h
    have : (Q.between n m).print = 123 :: (n ++ 44 :: m) ++ [125] := by simp [Q.print]
    rw [this, parseRep_brace]
    unfold braces
    have e := takeWhile_digits (rest := 44 :: m) h1.2.1 (Or.inr ⟨44, m, rfl, by decide⟩)
    simp only [e.1, e.2, h1.1, h2.1, stoul_num h1, stoul_num h2, all_digits h2, and_self, if_true, if_false]
    rw [if_neg (by omega)]
    rfl

/-- The first character of the text of an expression. -/
def Opens (s : Bytes) : Prop := s = [] ∨ ∃ c t, s = c :: t ∧ (c = 60 ∨ c = 91 ∨ c = 40)

theorem print_opens (p : Pat) : Opens p.print := by
  cases p with
  | nil => exact Or.inl rfl
  | comp re q rest => exact Or.inr ⟨60, _, rfl, by simp⟩
  | set neg res q rest => exact Or.inr ⟨91, _, rfl, by simp⟩
  | group inner q rest => exact Or.inr ⟨40, _, rfl, by simp⟩

theorem extractRep_print {q : Q} (h : q.WF) {s : Bytes} (hs : Opens s) : extractRep (q.print ++ s) = some (q.print, s) := by
  have br : ∀ x : Bytes, 125 ∉ x → extractRep (123 :: x ++ [125] ++ s) = some (123 :: x ++ [125], s) := by
    intro x hx
    have h1 : toBrace (x ++ [125] ++ s) = some (x ++ [125], s) := (toBrace_iff _ _ _).2 ⟨x, rfl, rfl, hx⟩
    show extractRep (123 :: (x ++ [125] ++ s)) = _
    have e : extractRep (123 :: (x ++ [125] ++ s)) = (toBrace (x ++ [125] ++ s)).map fun x => (123 :: x.1, x.2) := rfl
    rw [e, h1]
    rfl
  cases q with
  | one =>
    rcases hs with rfl | ⟨c, t, rfl, hc⟩
    · rfl
    · show extractRep (c :: t) = _
      rcases hc with rfl | rfl | rfl <;> rfl
  | opt => rfl
  | star => rfl
  | plus => rfl
  | exact n => exact br n (digits_ne h.2.1 125 (by decide))
  | atMost m =>
    have : (Q.atMost m).print = 123 :: (44 :: m) ++ [125] := by simp [Q.print]
    rw [this]
    apply br
    simp only [List.mem_cons, not_or]
    exact ⟨by decide, digits_ne h.2.1 125 (by decide)⟩
  | atLeast n =>
    have : (Q.atLeast n).print = 123 :: (n ++ [44]) ++ [125] := by simp [Q.print]
    rw [this]
    apply br
    simp only [List.mem_append, List.mem_singleton, not_or]
    exact ⟨digits_ne h.2.1 125 (by decide), by decide⟩
  | between n m =>
    have : (Q.between n m).print = 123 :: (n ++ 44 :: m) ++ [125] := by simp [Q.print]
    rw [this]
    apply br
    simp only [List.mem_append, List.mem_cons, not_or]
    exact ⟨digits_ne h.1.2.1 125 (by decide), by decide, digits_ne h.2.1.2.1 125 (by decide)⟩

theorem stoul_some {ds : Bytes} {n : Nat} (h : stoul ds = some n) : n = number ds ∧ number ds < 2 ^ 64 := by
  unfold stoul at h; split at h
  · exact ⟨by simpa using h.symm, by assumption⟩
  · simp at h

theorem split_digits (t : Bytes) : t = t.takeWhile isDigit ++ t.dropWhile isDigit ∧ (∀ c ∈ t.takeWhile isDigit, 48 ≤ c ∧ c ≤ 57) :=
  ⟨(List.takeWhile_append_dropWhile).symm, fun c hc => (digit_iff c).1 (by
    have := List.all_takeWhile (p := isDigit) (l := t)
    rw [List.all_eq_true] at this
    exact this c hc)⟩

theorem braces_some {t : Bytes} {r : Nat × Option Nat} (h : braces t = some r) :
    ∃ q : Q, q.WF ∧ q.print = 123 :: t ++ [125] ∧ r = (q.min, q.max) ∧ q ≠ .one := by
  obtain ⟨ht, hd⟩ := split_digits t
  unfold braces at h
  simp only at h
  generalize ha : t.takeWhile isDigit = a at *
  generalize hb : t.dropWhile isDigit = b at *
  subst ht
  cases b with
  | nil =>
    simp only at h
    split at h
    · simp at h
    · rename_i h1
      cases hs : stoul a with
      | none => rw [hs] at h; simp at h
      | some n =>
        rw [hs] at h
        obtain ⟨rfl, h2⟩ := stoul_some hs
        simp at h
        exact ⟨.exact a, ⟨h1, hd, h2⟩, by simp [Q.print], h.symm, by simp⟩
  | cons c b =>
    simp only at h
    split at h
    · rename_i h1
      obtain ⟨rfl, hall⟩ := h1
      have hbd : ∀ c ∈ b, 48 ≤ c ∧ c ≤ 57 := fun c hc => (digit_iff c).1 (List.all_eq_true.1 hall c hc)
      split at h
      · rename_i h2
        subst h2
        split at h
        · simp at h
        · rename_i h3
          cases hs : stoul b with
          | none => rw [hs] at h; simp at h
          | some n =>
            rw [hs] at h
            obtain ⟨rfl, h4⟩ := stoul_some hs
            simp at h
            exact ⟨.atMost b, ⟨h3, hbd, h4⟩, by simp [Q.print], h.symm, by simp⟩
      · rename_i h2
        split at h
        · rename_i h3
          subst h3
          cases hs : stoul a with
          | none => rw [hs] at h; simp at h
          | some n =>
            rw [hs] at h
            obtain ⟨rfl, h4⟩ := stoul_some hs
            simp at h
            exact ⟨.atLeast a, ⟨h2, hd, h4⟩, by simp [Q.print], h.symm, by simp⟩
        · rename_i h3
          split at h
          · rename_i n m hs1 hs2
            obtain ⟨rfl, h4⟩ := stoul_some hs1
            obtain ⟨rfl, h5⟩ := stoul_some hs2
            split at h
            · simp at h
            · rename_i h6
              simp at h
              exact ⟨.between a b, ⟨⟨h2, hd, h4⟩, ⟨h3, hbd, h5⟩, by omega⟩, by simp [Q.print], h.symm, by simp⟩
          · simp at h
    · simp at h

/-- Accepted quantifiers. -/
theorem rep_some {s x rest : Bytes} {r : Nat × Option Nat} (h : extractRep s = some (x, rest)) (hp : parseRep x = some r) :
    ∃ q : Q, q.WF ∧ q.print = x ∧ s = x ++ rest ∧ r = (q.min, q.max) := by
  cases s with
  | nil =>
    simp [extractRep] at h
    obtain ⟨rfl, rfl⟩ := h
    exact ⟨.one, trivial, rfl, rfl, (Option.some.inj (show some ((1, some 1) : Nat × Option Nat) = some r from hp)).symm⟩
  | cons c s =>
    simp only [extractRep] at h
    split at h
    · rename_i hc
      simp at h
      obtain ⟨rfl, rfl⟩ := h
      rcases hc with rfl | rfl | rfl
      · exact ⟨.plus, trivial, rfl, rfl, (Option.some.inj (show some ((1, none) : Nat × Option Nat) = some r from hp)).symm⟩
      · exact ⟨.opt, trivial, rfl, rfl, (Option.some.inj (show some ((0, some 1) : Nat × Option Nat) = some r from hp)).symm⟩
      · exact ⟨.star, trivial, rfl, rfl, (Option.some.inj (show some ((0, none) : Nat × Option Nat) = some r from hp)).symm⟩
    · split at h
      · rename_i hc
        simp only [Option.map_eq_some_iff, Prod.exists, Prod.mk.injEq] at h
        obtain ⟨a, b, h1, rfl, rfl⟩ := h
        obtain ⟨y, rfl, h2, h3⟩ := (toBrace_iff _ _ _).1 h1
        subst hc
        rw [← List.cons_append, parseRep_brace] at hp
        obtain ⟨q, q1, q2, q3, _⟩ := braces_some hp
        exact ⟨q, q1, by rw [q2]; simp, by simp [h2], q3⟩
      · simp at h
        obtain ⟨rfl, rfl⟩ := h
        exact ⟨.one, trivial, rfl, rfl, (Option.some.inj (show some ((1, some 1) : Nat × Option Nat) = some r from hp)).symm⟩

/-! ### Components and sets -/

def cmOf (env : Env α) (n : Nat) (re : Bytes) : CM := ⟨re, n, marksOf env re⟩

def cmsOf (env : Env α) : Nat → List Bytes → List CM
  | _, [] => []
  | n, re :: res => cmOf env n re :: cmsOf env (n + marksOf env re) res

theorem component_iff (env : Env α) (n : Nat) (e : Bytes) (m : CM) (n' : Nat) :
    component env n e = some (m, n') ↔ 0 ∉ e ∧ (env.marks e).isSome ∧ m = cmOf env n e ∧ n' = n + marksOf env e := by
  unfold component cmOf marksOf
  split
  · rename_i h; simp [h]
  · rename_i h
    cases env.marks e with
    | none => simp
    | some k =>
      simp [h]
      constructor
      · rintro ⟨rfl, rfl⟩; exact ⟨rfl, rfl⟩
      · rintro ⟨rfl, rfl⟩; exact ⟨rfl, rfl⟩

def setInner (res : List Bytes) : Bytes := res.flatMap fun re => 60 :: re ++ [62]

theorem components_print (env : Env α) (res : List Bytes) (h : ∀ re ∈ res, CompWF env re) (fuel n : Nat) (hf : (setInner res).length ≤ fuel) :
    components env fuel n (setInner res) = some (cmsOf env n res, n + (res.map (marksOf env)).sum) := by
  induction res generalizing fuel n with
  | nil => cases fuel <;> simp [setInner, components, cmsOf]
  | cons re res ih =>
    have e : setInner (re :: res) = 60 :: (re ++ 62 :: setInner res) := by simp [setInner]
    rw [e] at hf ⊢
    cases fuel with
    | zero => simp at hf
    | succ fuel =>
      obtain ⟨h1, h2, h3⟩ := h re (by simp)
      unfold components
      rw [if_neg (by decide), (sub_one_iff (by decide) _ re (setInner res)).2 ⟨rfl, h1⟩]
      simp only
      rw [(component_iff env n re _ _).2 ⟨h2, h3, rfl, rfl⟩]
      simp only
      rw [ih (fun x hx => h x (by simp [hx])) fuel _ (by simp at hf; omega)]
      simp [cmsOf]
      omega

theorem components_some (env : Env α) {fuel n : Nat} {s : Bytes} {cs : List CM} {n' : Nat} (h : components env fuel n s = some (cs, n')) :
    ∃ res, s = setInner res ∧ (∀ re ∈ res, CompWF env re) ∧ cs = cmsOf env n res ∧ n' = n + (res.map (marksOf env)).sum := by
  induction fuel generalizing n s cs with
  | zero =>
    cases s with
    | nil => simp [components] at h; exact ⟨[], by simp [setInner], by simp, by simp [cmsOf, h.1], by simp [h.2]⟩
    | cons c s => simp [components] at h
  | succ fuel ih =>
    cases s with
    | nil => simp [components] at h; exact ⟨[], by simp [setInner], by simp, by simp [cmsOf, h.1], by simp [h.2]⟩
    | cons c s =>
      unfold components at h
      split at h
      · simp at h
      · rename_i hc
        have hc : c = 60 := by simpa using hc
        split at h
        · simp at h
        · rename_i e rest hs
          obtain ⟨rfl, hb⟩ := (sub_one_iff (by decide) _ _ _).1 hs
          split at h
          · simp at h
          · rename_i m n1 hcm
            obtain ⟨g1, g2, rfl, rfl⟩ := (component_iff env n e m n1).1 hcm
            simp only [Option.map_eq_some_iff, Prod.exists, Prod.mk.injEq] at h
            obtain ⟨a, b, h1, rfl, rfl⟩ := h
            obtain ⟨res, rfl, r2, rfl, rfl⟩ := ih h1
            refine ⟨e :: res, by simp [setInner, hc], ?_, rfl, by simp; omega⟩
            intro re hre
            rcases List.mem_cons.1 hre with rfl | hre
            · exact ⟨hb, g1, g2⟩
            · exact r2 re hre

theorem setOf_print (env : Env α) (neg : Bool) (res : List Bytes) (h : ∀ re ∈ res, CompWF env re) (n : Nat) :
    setOf env n (setText neg res) = some (.set (!neg) (cmsOf env n res), n + (res.map (marksOf env)).sum) := by
  have k := components_print env res h (setInner res).length n (Nat.le_refl _)
  cases neg with
  | true =>
    show (components env (setInner res).length n (setInner res)).map _ = _
    rw [k]; rfl
  | false =>
    have e : setText false res = setInner res := by simp [setText, setInner]
    rw [e]
    unfold setOf
    cases res with
    | nil => rfl
    | cons re res =>
      have e2 : setInner (re :: res) = 60 :: (re ++ 62 :: setInner res) := by simp [setInner]
      rw [e2] at k ⊢
      show Option.map _ (components env _ n (60 :: (re ++ 62 :: setInner res))) = _
      rw [k]; rfl

theorem setOf_some (env : Env α) {n : Nat} {s : Bytes} {m : M} {n' : Nat} (h : setOf env n s = some (m, n')) :
    ∃ neg res, s = setText neg res ∧ (∀ re ∈ res, CompWF env re) ∧ m = .set (!neg) (cmsOf env n res) ∧ n' = n + (res.map (marksOf env)).sum := by
  unfold setOf at h
  split at h
  · simp only [Option.map_eq_some_iff, Prod.exists, Prod.mk.injEq] at h
    obtain ⟨a, b, h1, rfl, rfl⟩ := h
    obtain ⟨res, rfl, r2, rfl, rfl⟩ := components_some env h1
    exact ⟨true, res, by simp [setText, setInner], r2, rfl, rfl⟩
  · simp only [Option.map_eq_some_iff, Prod.exists, Prod.mk.injEq] at h
    obtain ⟨a, b, h1, rfl, rfl⟩ := h
    obtain ⟨res, rfl, r2, rfl, rfl⟩ := components_some env h1
    exact ⟨false, res, by simp [setText, setInner], r2, rfl, rfl⟩

/-! ### Expressions -/

/-- The matcher of an expression. -/
def toM (env : Env α) : Pat → Nat → M
  | .nil, _ => .nil
  | .comp re q rest, n => .cons (.rep (.set true [cmOf env n re]) q.min q.max) (toM env rest (n + marksOf env re))
  | .set neg res q rest, n => .cons (.rep (.set (!neg) (cmsOf env n res)) q.min q.max) (toM env rest (n + (res.map (marksOf env)).sum))
  | .group inner q rest, n =>
    .cons (if q = .one then .group n (toM env inner (n + 1)) else .rep (.group n (toM env inner (n + 1))) q.min q.max)
      (toM env rest (n + 1 + inner.groups env))

theorem print_nil {q : Q} (h : q.print = []) : q = .one := by cases q <;> simp [Q.print] at h ⊢

theorem compile_print (env : Env α) (p : Pat) (h : p.WF env) (fuel n : Nat) (hf : p.print.length ≤ fuel) :
    compile env fuel n p.print = some (toM env p n, n + p.groups env) := by
  induction p generalizing fuel n with
  | nil => cases fuel <;> simp [Pat.print, compile, toM, Pat.groups]
  | comp re q rest ih =>
    obtain ⟨⟨h1, h2, h3⟩, h4, h5⟩ := h
    have e : (Pat.comp re q rest).print = 60 :: (re ++ 62 :: (q.print ++ rest.print)) := by simp [Pat.print]
    rw [e] at hf ⊢
    cases fuel with
    | zero => simp at hf
    | succ fuel =>
      unfold compile
      simp only [if_neg (by decide : ¬ (60 : UInt8) = 40), if_true]
      rw [(sub_one_iff (by decide) _ re (q.print ++ rest.print)).2 ⟨rfl, h1⟩]
      simp only [extractRep_print h4 (print_opens rest), (component_iff env n re _ _).2 ⟨h2, h3, rfl, rfl⟩, repeated, parseRep_print h4, Option.map_some]
      rw [ih h5 fuel _ (by simp at hf; omega)]
      simp [toM, Pat.groups]
      omega
  | set neg res q rest ih =>
    obtain ⟨h1, h2, h4, h5⟩ := h
    have e : (Pat.set neg res q rest).print = 91 :: (setText neg res ++ 93 :: (q.print ++ rest.print)) := by simp [Pat.print]
    rw [e] at hf ⊢
    cases fuel with
    | zero => simp at hf
    | succ fuel =>
      unfold compile
      simp only [if_neg (by decide : ¬ (91 : UInt8) = 40), if_neg (by decide : ¬ (91 : UInt8) = 60), if_true]
      rw [(sub_one_iff (by decide) _ (setText neg res) (q.print ++ rest.print)).2 ⟨rfl, h2⟩]
      simp only [extractRep_print h4 (print_opens rest), setOf_print env neg res h1 n, repeated, parseRep_print h4, Option.map_some]
      rw [ih h5 fuel _ (by simp at hf; omega)]
      simp [toM, Pat.groups]
      omega
  | group inner q rest ihi ihr =>
    obtain ⟨h1, h2, h4, h5⟩ := h
    have e : (Pat.group inner q rest).print = 40 :: (inner.print ++ 41 :: (q.print ++ rest.print)) := by simp [Pat.print]
    rw [e] at hf ⊢
    cases fuel with
    | zero => simp at hf
    | succ fuel =>
      unfold compile
      simp only [if_true]
      rw [(sub_one_iff (by decide) _ inner.print (q.print ++ rest.print)).2 ⟨rfl, h2⟩]
      simp only [extractRep_print h4 (print_opens rest)]
      rw [ihi h1 fuel (n + 1) (by simp at hf; omega)]
      simp only
      by_cases hq : q = .one
      · have hp : q.print = [] := by rw [hq]; rfl
        simp only [hp, if_true]
        rw [ihr h5 fuel _ (by simp at hf; omega)]
        simp [toM, Pat.groups, hq]
        omega
      · have hp : q.print ≠ [] := fun h => hq (print_nil h)
        simp only [if_neg hp, repeated, parseRep_print h4, Option.map_some]
        rw [ihr h5 fuel _ (by simp at hf; omega)]
        simp [toM, Pat.groups, hq]
        omega

theorem compile_some (env : Env α) {fuel n : Nat} {s : Bytes} {m : M} {n' : Nat} (h : compile env fuel n s = some (m, n')) :
    ∃ p : Pat, p.WF env ∧ s = p.print ∧ m = toM env p n ∧ n' = n + p.groups env := by
  induction fuel generalizing n s m n' with
  | zero =>
    cases s with
    | nil => simp [compile] at h; exact ⟨.nil, trivial, rfl, by simp [toM, h.1], by simp [Pat.groups, h.2]⟩
    | cons c s => simp [compile] at h
  | succ fuel ih =>
    cases s with
    | nil => simp [compile] at h; exact ⟨.nil, trivial, rfl, by simp [toM, h.1], by simp [Pat.groups, h.2]⟩
    | cons c s =>
      unfold compile at h
      simp only at h
      split at h
      · simp at h
      · rename_i m1 n1 rest hitem
        simp only [Option.map_eq_some_iff, Prod.exists, Prod.mk.injEq] at h
        obtain ⟨mr, nr, hr, rfl, rfl⟩ := h
        obtain ⟨pr, pr1, rfl, rfl, rfl⟩ := ih hr
        split at hitem
        · rename_i hc
          split at hitem
          · simp at hitem
          · rename_i inner rest1 hs
            obtain ⟨rfl, hb⟩ := (sub_one_iff (by decide) _ _ _).1 hs
            split at hitem
            · simp at hitem
            · rename_i x rest2 hx
              split at hitem
              · simp at hitem
              · rename_i mi ni hi
                obtain ⟨pi, pi1, rfl, rfl, rfl⟩ := ih hi
                split at hitem
                · rename_i hxe
                  subst hxe
                  simp at hitem
                  obtain ⟨⟨rfl, rfl⟩, rfl⟩ := hitem
                  obtain ⟨q, q1, q2, rfl, q4⟩ := rep_some hx (by rfl : parseRep [] = some (1, some 1))
                  have hq := print_nil q2
                  subst hq
                  refine ⟨.group pi .one pr, ⟨pi1, hb, trivial, pr1⟩, by simp [Pat.print, Q.print, hc], ?_, ?_⟩
                  · simp only [toM, if_true]
                    (try congr 2); (try omega)
                  · simp [Pat.groups]; omega
                · rename_i hxe
                  simp only [repeated, Option.map_eq_some_iff, Prod.mk.injEq, Prod.exists] at hitem
                  obtain ⟨_, _, ⟨mn, mx, hp, rfl, rfl⟩, ⟨rfl, rfl⟩, rfl⟩ := hitem
                  obtain ⟨q, q1, rfl, rfl, q4⟩ := rep_some hx hp
                  have hq : q ≠ .one := by rintro rfl; exact hxe rfl
                  simp only [Prod.mk.injEq] at q4
                  refine ⟨.group pi q pr, ⟨pi1, hb, q1, pr1⟩, by simp [Pat.print, hc], ?_, ?_⟩
                  · simp only [toM, if_neg hq, q4.1, q4.2]
                    (try congr 2); (try omega)
                  · simp [Pat.groups]; omega
        · split at hitem
          · rename_i hc
            split at hitem
            · simp at hitem
            · rename_i e rest1 hs
              obtain ⟨rfl, hb⟩ := (sub_one_iff (by decide) _ _ _).1 hs
              split at hitem
              · simp at hitem
              · rename_i x rest2 hx
                split at hitem
                · simp at hitem
                · rename_i mi ni hi
                  obtain ⟨g1, g2, rfl, rfl⟩ := (component_iff env n e mi ni).1 hi
                  simp only [repeated, Option.map_eq_some_iff, Prod.mk.injEq, Prod.exists] at hitem
                  obtain ⟨_, _, ⟨mn, mx, hp, rfl, rfl⟩, ⟨rfl, rfl⟩, rfl⟩ := hitem
                  obtain ⟨q, q1, rfl, rfl, q4⟩ := rep_some hx hp
                  simp only [Prod.mk.injEq] at q4
                  refine ⟨.comp e q pr, ⟨⟨hb, g1, g2⟩, q1, pr1⟩, by simp [Pat.print, hc], ?_, ?_⟩
                  · simp only [toM, q4.1, q4.2]
                  · simp [Pat.groups]; omega
          · split at hitem
            · rename_i hc
              split at hitem
              · simp at hitem
              · rename_i e rest1 hs
                obtain ⟨rfl, hb⟩ := (sub_one_iff (by decide) _ _ _).1 hs
                split at hitem
                · simp at hitem
                · rename_i x rest2 hx
                  split at hitem
                  · simp at hitem
                  · rename_i mi hi
                    obtain ⟨mi, ni⟩ := mi
                    obtain ⟨neg, res, rfl, g2, rfl, rfl⟩ := setOf_some env hi
                    simp only [repeated, Option.map_eq_some_iff, Prod.mk.injEq, Prod.exists] at hitem
                    obtain ⟨_, _, ⟨mn, mx, hp, rfl, rfl⟩, ⟨rfl, rfl⟩, rfl⟩ := hitem
                    obtain ⟨q, q1, rfl, rfl, q4⟩ := rep_some hx hp
                    simp only [Prod.mk.injEq] at q4
                    refine ⟨.set neg res q pr, ⟨g2, hb, q1, pr1⟩, by simp [Pat.print, hc], ?_, ?_⟩
                    · simp only [toM, q4.1, q4.2]
                    · simp [Pat.groups]; omega
            · simp at hitem

/-- The compiler accepts exactly the texts of well-formed expressions. -/
theorem compileList_iff (env : Env α) (s : Bytes) (m : M) (n : Nat) :
    compileList env s = some (m, n) ↔ ∃ p : Pat, p.WF env ∧ s = p.print ∧ m = toM env p 0 ∧ n = p.groups env := by
  constructor
  · intro h
    obtain ⟨p, h1, h2, h3, h4⟩ := compile_some env h
    exact ⟨p, h1, h2, h3, by simpa using h4⟩
  · rintro ⟨p, h1, rfl, rfl, rfl⟩
    have := compile_print env p h1 p.print.length 0 (Nat.le_refl _)
    simpa [compileList] using this

end Ndn.Regex
