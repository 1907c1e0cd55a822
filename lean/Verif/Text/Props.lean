import Verif.Text.Spec
import Verif.Name.UriProps
import Verif.Hex.Lemmas
/-
C149: texts of the management enumerations.
-/
namespace Ndn.Text
open Spec Name

private theorem dec_inj {n m : Nat} (h : dec n = dec m) : n = m := by
  rw [← leadNumber_dec n, h, leadNumber_dec]

private theorem dec_ne {n : Nat} {s : Bytes} (h : ∃ c ∈ s, ¬ (48 ≤ c.toNat ∧ c.toNat ≤ 57)) : dec n ≠ s := by
  rintro rfl
  obtain ⟨c, h1, h2⟩ := h
  exact h2 (dec_digits n c h1)

local macro "texts" : tactic => `(tactic| (
  repeat' split
  all_goals intro h
  all_goals first
    | omega
    | (exact absurd h (by decide))
    | (exact dec_inj h)
    | (exact absurd h (dec_ne (by decide)))
    | (exact absurd h.symm (dec_ne (by decide)))))

/-- Different values have different texts. -/
theorem C149_scope (n m : Nat) : faceScopeText n = faceScopeText m → n = m := by unfold faceScopeText; texts
theorem C149_persistency (n m : Nat) : persistencyText n = persistencyText m → n = m := by unfold persistencyText; texts
theorem C149_linkType (n m : Nat) : linkTypeText n = linkTypeText m → n = m := by unfold linkTypeText; texts
theorem C149_event (n m : Nat) : eventText n = eventText m → n = m := by unfold eventText; texts

/-! ### Route origins -/

private theorem lower_eq (c : UInt8) : Config.lower c = lower c := by
  unfold Config.lower lower
  by_cases h : 65 ≤ c ∧ c ≤ 90
  · rw [if_pos h, if_pos ⟨UInt8.le_iff_toNat_le.1 h.1, UInt8.le_iff_toNat_le.1 h.2⟩]
    apply UInt8.toNat_inj.1
    have h1 : c.toNat ≤ 90 := by simpa using UInt8.le_iff_toNat_le.1 h.2
    rw [UInt8.toNat_add, UInt8.toNat_ofNat']
    rfl
  · rw [if_neg h, if_neg (fun h' => h ⟨UInt8.le_iff_toNat_le.2 (by simpa using h'.1), UInt8.le_iff_toNat_le.2 (by simpa using h'.2)⟩)]

private theorem iequals_iff (s t : Bytes) (ht : t.map lower = t) : Config.iequals s t = true ↔ s.map lower = t := by
  unfold Config.iequals
  rw [beq_iff_eq, show Config.lower = lower from funext lower_eq, ht]

private theorem digits_iff (ds : Bytes) (n : Nat) : Config.digits ds = some n ↔ AllDigits ds ∧ number ds = n := by
  unfold Config.digits AllDigits
  have : (ds.all Regex.isDigit = true) ↔ ∀ c ∈ ds, 48 ≤ c.toNat ∧ c.toNat ≤ 57 := by
    rw [List.all_eq_true]
    refine forall_congr' fun c => imp_congr Iff.rfl ?_
    unfold Regex.isDigit
    simp [UInt8.le_iff_toNat_le]
  by_cases h : ds ≠ [] ∧ ∀ c ∈ ds, 48 ≤ c.toNat ∧ c.toNat ≤ 57
  · rw [if_pos ⟨h.1, this.2 h.2⟩]
    exact ⟨fun e => ⟨h, Option.some.inj e⟩, fun e => congrArg some e.2⟩
  · rw [if_neg (fun e => h ⟨e.1, this.1 e.2⟩)]
    exact ⟨fun e => (by cases e), fun e => absurd e.1 h⟩

/-- A number that the library takes. -/
private theorem number_iff (t : Bytes) (n : Nat) :
    (let v : Int := (Config.toInt32 t).getD (-1); (0 ≤ v ∧ v ≤ 65535) ∧ v.toNat = n) ↔
      ∃ sign ds, t = sign ++ ds ∧ AllDigits ds ∧ number ds = n ∧ n ≤ 65535 ∧ (sign = [] ∨ sign = [43] ∨ (sign = [45] ∧ n = 0)) := by
  have nd : ∀ {c : UInt8} {ds : Bytes}, (c = 43 ∨ c = 45) → ¬ AllDigits (c :: ds) := by
    rintro c ds h ⟨-, h2⟩
    have := h2 c (by simp)
    rcases h with rfl | rfl <;> revert this <;> decide
  dsimp only
  constructor
  · rintro ⟨⟨h1, h2⟩, h3⟩
    cases hv : Config.toInt32 t with
    | none => rw [hv] at h1; simp at h1
    | some v =>
      rw [hv] at h1 h2 h3
      simp only [Option.getD_some] at h1 h2 h3
      have fin : ∀ {ds : Bytes} {P : Nat → Prop} [DecidablePred P] {g : Nat → Int},
          ((Config.digits ds).bind fun n => if P n then some (g n) else none) = some v → ∃ k, AllDigits ds ∧ number ds = k ∧ g k = v := by
        intro ds P _ g h
        cases hd : Config.digits ds with
        | none => rw [hd] at h; cases h
        | some k =>
          rw [hd] at h
          simp only [Option.bind_some] at h
          obtain ⟨g1, g2⟩ := (digits_iff ds k).1 hd
          split at h
          · exact ⟨k, g1, g2, Option.some.inj h⟩
          · cases h
      unfold Config.toInt32 at hv
      split at hv
      · rename_i ds
        obtain ⟨k, g1, g2, g3⟩ := fin hv
        exact ⟨[45], ds, rfl, g1, by omega, by omega, .inr (.inr ⟨rfl, by omega⟩)⟩
      · rename_i ds
        obtain ⟨k, g1, g2, g3⟩ := fin hv
        exact ⟨[43], ds, rfl, g1, by omega, by omega, .inr (.inl rfl)⟩
      · obtain ⟨k, g1, g2, g3⟩ := fin hv
        exact ⟨[], t, rfl, g1, by omega, by omega, .inl rfl⟩
  · rintro ⟨sign, ds, rfl, h2, h3, h4, h5⟩
    have hd : Config.digits ds = some n := (digits_iff ds n).2 ⟨h2, h3⟩
    have key : (Config.toInt32 (sign ++ ds)) = some (n : Int) := by
      rcases h5 with rfl | rfl | ⟨rfl, rfl⟩
      · unfold Config.toInt32
        split
        · rename_i e; simp only [List.nil_append] at e; subst e; exact absurd h2 (nd (.inr rfl))
        · rename_i e; simp only [List.nil_append] at e; subst e; exact absurd h2 (nd (.inl rfl))
        · rw [List.nil_append, hd]; simp only [Option.bind_some]; rw [if_pos (by omega)]
      · show (Config.digits ds).bind _ = _
        rw [hd]; simp only [Option.bind_some]; rw [if_pos (by omega)]
      · show (Config.digits ds).bind _ = _
        rw [hd]; rfl
    rw [key]
    simp only [Option.getD_some]
    omega

/-- A word is read as a route origin exactly if it stands for it. -/
theorem C149_origin (t : Bytes) (n : Nat) : originOf t = some n ↔ Denotes t n := by
  unfold originOf Denotes Named
  rw [← number_iff]
  simp only [iequals_iff _ _ (show (w "none").map lower = w "none" by decide), iequals_iff _ _ (show (w "app").map lower = w "app" by decide),
    iequals_iff _ _ (show (w "autoreg").map lower = w "autoreg" by decide), iequals_iff _ _ (show (w "client").map lower = w "client" by decide),
    iequals_iff _ _ (show (w "autoconf").map lower = w "autoconf" by decide), iequals_iff _ _ (show (w "nlsr").map lower = w "nlsr" by decide),
    iequals_iff _ _ (show (w "prefixann").map lower = w "prefixann" by decide), iequals_iff _ _ (show (w "static").map lower = w "static" by decide)]
  have nonum : ∀ word, (∃ c ∈ word, 57 < c.toNat) → t.map lower = word →
      ¬ (let v : Int := (Config.toInt32 t).getD (-1); (0 ≤ v ∧ v ≤ 65535) ∧ v.toNat = n) := by
    intro word hw ht hn
    obtain ⟨sign, ds, rfl, h2, -, -, h5⟩ := (number_iff t n).1 hn
    have hle : ∀ c ∈ sign ++ ds, c.toNat ≤ 57 := by
      intro c hc
      rcases List.mem_append.1 hc with hc | hc
      · rcases h5 with rfl | rfl | ⟨rfl, -⟩
        · cases hc
        · simp at hc; subst hc; decide
        · simp at hc; subst hc; decide
      · exact (h2.2 c hc).2
    have hmap : (sign ++ ds).map lower = sign ++ ds := by
      conv => rhs; rw [← List.map_id (sign ++ ds)]
      refine List.map_congr_left fun c hc => ?_
      unfold lower
      rw [if_neg (by have := hle c hc; omega)]
      rfl
    rw [hmap] at ht
    obtain ⟨c, h6, h7⟩ := hw
    rw [← ht] at h6
    have := hle c h6
    omega
  simp only [List.mem_cons, Prod.mk.injEq, List.not_mem_nil, or_false]
  have named : ∀ {word : Bytes} {v : Nat}, (∃ c ∈ word, 57 < c.toNat) → t.map lower = word →
      (∀ m, ((word = w "none" ∧ m = 65535) ∨ (word = w "app" ∧ m = 0) ∨ (word = w "autoreg" ∧ m = 64) ∨ (word = w "client" ∧ m = 65) ∨
        (word = w "autoconf" ∧ m = 66) ∨ (word = w "nlsr" ∧ m = 128) ∨ (word = w "prefixann" ∧ m = 129) ∨ (word = w "static" ∧ m = 255)) ↔ v = m) →
      (some v = some n ↔ ((t.map lower = w "none" ∧ n = 65535) ∨ (t.map lower = w "app" ∧ n = 0) ∨ (t.map lower = w "autoreg" ∧ n = 64) ∨
        (t.map lower = w "client" ∧ n = 65) ∨ (t.map lower = w "autoconf" ∧ n = 66) ∨ (t.map lower = w "nlsr" ∧ n = 128) ∨
        (t.map lower = w "prefixann" ∧ n = 129) ∨ (t.map lower = w "static" ∧ n = 255)) ∨
        (let v : Int := (Config.toInt32 t).getD (-1); (0 ≤ v ∧ v ≤ 65535) ∧ v.toNat = n)) := by
    intro word v h1 h2 h3
    have h4 := nonum word h1 h2
    rw [h2, h3, Option.some_inj]
    exact ⟨.inl, fun h => h.resolve_right h4⟩
  have pick : ∀ (word : Bytes) (v : Nat), (word = w "none" ∧ v = 65535) ∨ (word = w "app" ∧ v = 0) ∨ (word = w "autoreg" ∧ v = 64) ∨
      (word = w "client" ∧ v = 65) ∨ (word = w "autoconf" ∧ v = 66) ∨ (word = w "nlsr" ∧ v = 128) ∨ (word = w "prefixann" ∧ v = 129) ∨
      (word = w "static" ∧ v = 255) → 
      (∀ m, ((word = w "none" ∧ m = 65535) ∨ (word = w "app" ∧ m = 0) ∨ (word = w "autoreg" ∧ m = 64) ∨ (word = w "client" ∧ m = 65) ∨
        (word = w "autoconf" ∧ m = 66) ∨ (word = w "nlsr" ∧ m = 128) ∨ (word = w "prefixann" ∧ m = 129) ∨ (word = w "static" ∧ m = 255)) ↔ v = m) := by
    intro word v h m
    constructor
    · intro h'
      rcases h with ⟨rfl, rfl⟩ | ⟨rfl, rfl⟩ | ⟨rfl, rfl⟩ | ⟨rfl, rfl⟩ | ⟨rfl, rfl⟩ | ⟨rfl, rfl⟩ | ⟨rfl, rfl⟩ | ⟨rfl, rfl⟩ <;>
        rcases h' with ⟨e, rfl⟩ | ⟨e, rfl⟩ | ⟨e, rfl⟩ | ⟨e, rfl⟩ | ⟨e, rfl⟩ | ⟨e, rfl⟩ | ⟨e, rfl⟩ | ⟨e, rfl⟩ <;>
        first | rfl | exact absurd e (by decide)
    · rintro rfl; exact h
  split
  · rename_i h; exact named (by decide) h (pick _ _ (by decide))
  · split
    · rename_i h; exact named (by decide) h (pick _ _ (by decide))
    · split
      · rename_i h; exact named (by decide) h (pick _ _ (by decide))
      · split
        · rename_i h; exact named (by decide) h (pick _ _ (by decide))
        · split
          · rename_i h; exact named (by decide) h (pick _ _ (by decide))
          · split
            · rename_i h; exact named (by decide) h (pick _ _ (by decide))
            · split
              · rename_i h; exact named (by decide) h (pick _ _ (by decide))
              · split
                · rename_i h; exact named (by decide) h (pick _ _ (by decide))
                · rename_i h1 h2 h3 h4 h5 h6 h7 h8
                  simp only [h1, h2, h3, h4, h5, h6, h7, h8, false_and, or_self, false_or]
                  split
                  · rename_i h; rw [Option.some_inj]; exact ⟨fun e => ⟨h, e⟩, fun e => e.2⟩
                  · rename_i h; exact ⟨fun e => (by cases e), fun e => absurd e.1 h⟩

private theorem white_iff (c : UInt8) : Net.isSpace c = true ↔ White c := by
  unfold Net.isSpace White
  simp

private theorem originText_denotes (n : Nat) (h : n ≤ 65535) : Denotes (originText n) n ∧ originText n ≠ [] ∧ ∀ c ∈ originText n, ¬ White c := by
  unfold originText
  have hd : Denotes (dec n) n ∧ dec n ≠ [] ∧ ∀ c ∈ dec n, ¬ White c := by
    refine ⟨.inr ⟨[], dec n, rfl, ⟨dec_ne_nil n, dec_digits n⟩, ?_, h, .inl rfl⟩, dec_ne_nil n, fun c hc hw => ?_⟩
    · exact (decFuel_spec n n (Nat.le_refl _)).2.2
    · have := dec_digits n c hc
      rcases hw with rfl | hw
      · revert this; decide
      · omega
  have hw : ∀ (word : Bytes) (k : Nat), Named (word.map lower) k → word ≠ [] → (∀ c ∈ word, ¬ White c) →
      Denotes word k ∧ word ≠ [] ∧ ∀ c ∈ word, ¬ White c := fun word k h1 h2 h3 => ⟨.inl h1, h2, h3⟩
  have nw : ∀ (word : Bytes), (word.all fun c => decide (32 < c.toNat)) = true → ∀ c ∈ word, ¬ White c := by
    intro word h c hc hw
    have := List.all_eq_true.1 h c hc
    simp only [decide_eq_true_eq] at this
    rcases hw with rfl | hw
    · revert this; decide
    · omega
  repeat' split
  all_goals first
    | exact hd
    | (rename_i e; subst e; exact hw _ _ (by unfold Named; decide) (by decide) (nw _ (by decide)))

/-- Reading: white space is skipped, the next word is taken, and the origin is what the word stands for; if it stands for none, reading fails and
gives the origin "none". -/
theorem C149_read (ws t rest : Bytes) (hws : ∀ c ∈ ws, White c) (ht : ∀ c ∈ t, ¬ White c) (hr : ∀ c, rest.head? = some c → White c)
    (hne : t = [] → rest = []) :
    (∀ n, Denotes t n → readOrigin (ws ++ t ++ rest) = (true, n, rest)) ∧
    ((∀ n, ¬ Denotes t n) → readOrigin (ws ++ t ++ rest) = (false, 65535, rest)) := by
  have h1 : (ws ++ t ++ rest).dropWhile Net.isSpace = t ++ rest := by
    rw [List.append_assoc]
    induction ws with
    | nil =>
      rw [List.nil_append]
      cases t with
      | nil => rw [hne rfl]; rfl
      | cons c t => rw [List.cons_append, List.dropWhile_cons, if_neg (fun e => ht c (by simp) ((white_iff c).1 e))]
    | cons c ws ih =>
      rw [List.cons_append, List.dropWhile_cons, if_pos ((white_iff c).2 (hws c (by simp)))]
      exact ih (fun c hc => hws c (by simp [hc]))
  have h2 : ∀ c ∈ t, (!Net.isSpace c) = true := by
    intro c hc
    cases h : Net.isSpace c with
    | false => rfl
    | true => exact absurd ((white_iff c).1 h) (ht c hc)
  have h3 : readToken (ws ++ t ++ rest) = (t, rest) := by
    unfold readToken
    rw [h1]
    dsimp only
    have ht1 : ∀ (t : Bytes), (∀ c ∈ t, (!Net.isSpace c) = true) →
        (t ++ rest).takeWhile (fun c => !Net.isSpace c) = t ∧ (t ++ rest).dropWhile (fun c => !Net.isSpace c) = rest := by
      intro t
      induction t with
      | nil =>
        intro _
        cases hrest : rest with
        | nil => exact ⟨rfl, rfl⟩
        | cons c r =>
          have := (white_iff c).2 (hr c (by rw [hrest]; rfl))
          rw [List.nil_append, List.takeWhile_cons, List.dropWhile_cons]
          simp [this]
      | cons c t ih =>
        intro h
        obtain ⟨g1, g2⟩ := ih (fun c hc => h c (by simp [hc]))
        rw [List.cons_append, List.takeWhile_cons, List.dropWhile_cons, if_pos (h c (by simp)), if_pos (h c (by simp)), g1, g2]
        exact ⟨rfl, rfl⟩
    rw [(ht1 t h2).1, (ht1 t h2).2]
  unfold readOrigin
  rw [h3]
  dsimp only
  constructor
  · intro n hn
    rw [(C149_origin t n).2 hn]
  · intro hn
    cases ho : originOf t with
    | none => rfl
    | some n => exact absurd ((C149_origin t n).1 ho) (hn n)

/-- What is printed for a route origin is read back, whatever white space is before it and wherever the text goes on after white space. -/
theorem C149_roundtrip (n : Nat) (h : n ≤ 65535) (ws rest : Bytes) (hws : ∀ c ∈ ws, White c) (hr : ∀ c, rest.head? = some c → White c) :
    readOrigin (ws ++ originText n ++ rest) = (true, n, rest) :=
  (C149_read ws _ rest hws (originText_denotes n h).2.2 hr (fun e => absurd e (originText_denotes n h).2.1)).1 n (originText_denotes n h).1

/-! ### Route flags -/

private theorem hexChar_val (n : Nat) : (if (Hex.toHexChar n false).toNat ≤ 57 then (Hex.toHexChar n false).toNat - 48
    else (Hex.toHexChar n false).toNat - 87) = n % 16 := by
  unfold Hex.toHexChar
  dsimp only
  have : n % 16 < 16 := Nat.mod_lt _ (by decide)
  by_cases h : n % 16 < 10
  · rw [if_pos h, UInt8.toNat_ofNat', Nat.mod_eq_of_lt (by omega), if_pos (by omega)]; omega
  · rw [if_neg h]
    simp only [Bool.false_eq_true, if_false]
    rw [UInt8.toNat_ofNat', Nat.mod_eq_of_lt (by omega), if_neg (by omega)]; omega

private theorem hexFuel_val : ∀ (f n : Nat), n ≤ f → hexNumber (hexFuel f n) = n := by
  intro f
  induction f with
  | zero =>
    intro n hn
    have : n = 0 := by omega
    subst this
    decide
  | succ f ih =>
    intro n hn
    unfold hexFuel
    by_cases h : n < 16
    · rw [if_pos h]
      simp only [hexNumber, List.foldl_cons, List.foldl_nil]
      rw [hexChar_val]; omega
    · rw [if_neg h]
      unfold hexNumber at ih ⊢
      rw [List.foldl_append, ih (n / 16) (by omega)]
      simp only [List.foldl_cons, List.foldl_nil]
      rw [hexChar_val]; omega

private theorem flags_tokens (f : Nat) : knownBits [(1, w "child-inherit"), (2, w "capture")] f =
    ((if f % 2 = 1 then [w "child-inherit"] else []) ++ (if f / 2 % 2 = 1 then [w "capture"] else []), f / 4 * 4) := by
  have h1 : ∀ g, (g &&& 1 ≠ 0) ↔ g % 2 = 1 := by intro g; rw [Nat.and_one_is_mod]; omega
  have h2 : ∀ g, (g &&& 2 ≠ 0) ↔ g / 2 % 2 = 1 := by
    intro g
    have key : (g &&& 2) = (g / 2 % 2) * 2 := by
      apply Nat.eq_of_testBit_eq
      intro i
      rw [Nat.testBit_and]
      rcases Nat.mod_two_eq_zero_or_one (g / 2) with e | e
      · rw [e]
        by_cases hi : i = 1
        · subst hi; rw [Nat.testBit_eq_decide_div_mod_eq]; simp [e]
        · have : Nat.testBit 2 i = false := by
            rw [show (2 : Nat) = 2 ^ 1 from rfl, Nat.testBit_two_pow]; simp; omega
          simp [this]
      · rw [e, Nat.one_mul]
        by_cases hi : i = 1
        · subst hi; rw [Nat.testBit_eq_decide_div_mod_eq (x := g)]; simp [e]
        · have : Nat.testBit 2 i = false := by
            rw [show (2 : Nat) = 2 ^ 1 from rfl, Nat.testBit_two_pow]; simp; omega
          simp [this]
    rw [key]; omega
  unfold knownBits knownBits knownBits
  by_cases g1 : f % 2 = 1
  · rw [if_pos ((h1 f).2 g1), if_pos g1]
    have e : (f - 1) / 2 = f / 2 := by omega
    by_cases g2 : f / 2 % 2 = 1
    · rw [if_pos ((h2 (f - 1)).2 (by rw [e]; exact g2)), if_pos g2]
      simp only [List.cons_append, List.nil_append, Prod.mk.injEq, true_and]
      omega
    · rw [if_neg (fun h => g2 (by rw [← e]; exact (h2 (f - 1)).1 h)), if_neg g2]
      simp only [List.append_nil, Prod.mk.injEq, true_and]
      omega
  · rw [if_neg (fun h => g1 ((h1 f).1 h)), if_neg g1]
    by_cases g2 : f / 2 % 2 = 1
    · rw [if_pos ((h2 f).2 g2), if_pos g2]
      simp only [List.nil_append, Prod.mk.injEq, true_and]
      omega
    · rw [if_neg (fun h => g2 ((h2 f).1 h)), if_neg g2]
      simp only [List.append_nil, Prod.mk.injEq, true_and]
      omega

private theorem read_steps (a b c : Bool) (n : Nat) (hn : c = false ∨ n ≠ 0) (h0 : a = true ∨ b = true ∨ c = true) :
    readFlags (joinBar ((if a then [w "child-inherit"] else []) ++ (if b then [w "capture"] else []) ++ if c then [asHex n] else [])) =
      some ((if a then 1 else 0) + (if b then 2 else 0) + if c then n else 0) := by
  have hv := hexFuel_val n n (Nat.le_refl _)
  generalize hx : hexFuel n n = x at hv
  have hs : asHex n = w "0x" ++ x := by unfold asHex; rw [hx]
  have e0 : w "0x" = [48, 120] := by decide
  have e1 : w "child-inherit" = [99, 104, 105, 108, 100, 45, 105, 110, 104, 101, 114, 105, 116] := by decide
  have e2 : w "capture" = [99, 97, 112, 116, 117, 114, 101] := by decide
  have e3 : w "none" = [110, 111, 110, 101] := by decide
  unfold readFlags
  rw [hs, e0, e1, e2, e3]
  cases a <;> cases b <;> cases c <;> simp [joinBar, strip, bar, List.isPrefixOf, hv] at h0 ⊢

/-- Route flags are printed so that a reader gets back every bit; different flags have different texts. -/
theorem C149_flags (f : Nat) : readFlags (flagsText f) = some f := by
  unfold flagsText
  by_cases h : f = 0
  · rw [if_pos h, h]; decide
  · rw [if_neg h]
    dsimp only
    rw [flags_tokens]
    dsimp only
    have := read_steps (decide (f % 2 = 1)) (decide (f / 2 % 2 = 1)) (decide (f / 4 * 4 ≠ 0)) (f / 4 * 4)
      (by by_cases g : f / 4 * 4 = 0 <;> simp [g] <;> omega) (by simp only [decide_eq_true_eq]; omega)
    simp only [decide_eq_true_eq] at this
    rw [this]
    congr 1
    repeat' split
    all_goals omega

theorem C149_flags_injective (f g : Nat) (h : flagsText f = flagsText g) : f = g := by
  have := C149_flags f
  rw [h, C149_flags] at this
  exact (Option.some.inj this).symm

example : flagsText 7 = w "child-inherit|capture|0x4" ∧ flagsText 0 = w "none" ∧ flagsText 2 = w "capture" ∧ originText 129 = w "prefixann" ∧
    readOrigin (w " \tPrefixAnn x") = (true, 129, w " x") ∧ readOrigin (w "+7") = (true, 7, []) ∧ readOrigin (w "65536") = (false, 65535, []) ∧
    readOrigin (w "-0") = (true, 0, []) ∧ readOrigin [] = (false, 65535, []) ∧ readOrigin (w "12a") = (false, 65535, []) ∧
    linkTypeText 2 = w "adhoc" ∧ eventText 9 = w "9" := by decide +kernel

end Ndn.Text
