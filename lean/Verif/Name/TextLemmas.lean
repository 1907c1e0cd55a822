import Verif.Name.UriProps
import Verif.Name.TextSpec
/-
Lemmas for the meaning of name text.
-/
namespace Ndn.Name
open Spec Tlv Hex.Spec

theorem decFuel_decimal : ∀ (f n : Nat), n ≤ f → Decimal (decFuel f n) n := by
  intro f
  induction f with
  | zero => intro n hn; have : n = 0 := by omega
            subst this; exact .digit 0 (by omega)
  | succ f ih =>
    intro n hn
    unfold decFuel
    by_cases h : n < 10
    · rw [if_pos h]; exact .digit n h
    · rw [if_neg h]
      have := Decimal.snoc (n % 10) (ih (n / 10) (by omega)) (by omega) (by omega)
      rwa [show n / 10 * 10 + n % 10 = n by omega] at this

theorem decimal_unique {s : Bytes} {n : Nat} (h : Decimal s n) : ∀ {s' : Bytes}, Decimal s' n → s = s' := by
  induction h with
  | digit d hd =>
    intro s' h'
    generalize he : d = m at h'
    cases h' with
    | digit e he' => subst he; rfl
    | snoc e hs hn he' => omega
  | @snoc s n d hs hn hd ih =>
    intro s' h'
    generalize he : n * 10 + d = m at h'
    cases h' with
    | digit e he' => omega
    | @snoc s2 n2 e hs' hn' he' =>
      have h1 : n = n2 := by omega
      have h2 : d = e := by omega
      subst h1; subst h2
      rw [ih hs']

theorem decimal_iff (s : Bytes) (n : Nat) : Decimal s n ↔ s = dec n :=
  ⟨fun h => decimal_unique h (decFuel_decimal n n (Nat.le_refl _)), fun h => h ▸ decFuel_decimal n n (Nat.le_refl _)⟩

theorem unescape_unescaped (s : Bytes) : Unescaped s (Hex.unescape s) := by
  match s with
  | [] => exact .nil
  | [a] =>
    by_cases ha : a = 37
    · subst ha; exact .last
    · exact .plain ha .nil
  | [a, b] =>
    by_cases ha : a = 37
    · subst ha; exact .last2 b
    · have := unescape_unescaped [b]
      exact .plain ha this
  | a :: b :: c :: s =>
    by_cases ha : a = 37
    · subst ha
      rw [Hex.unescape, if_pos rfl]
      have ih := unescape_unescaped s
      cases hb : Hex.fromHexChar b with
      | none =>
        refine .bad ?_ ih
        rintro ⟨⟨h, hh⟩, -⟩
        rw [(Hex.fromHexChar_iff _ _).mpr hh] at hb; cases hb
      | some x =>
        cases hc : Hex.fromHexChar c with
        | none =>
          refine .bad ?_ ih
          rintro ⟨-, ⟨h, hh⟩⟩
          rw [(Hex.fromHexChar_iff _ _).mpr hh] at hc; cases hc
        | some y =>
          have h1 := (Hex.fromHexChar_iff _ _).mp hb
          have h2 := (Hex.fromHexChar_iff _ _).mp hc
          refine .hex h1 h2 ?_ ih
          have lt16 : ∀ c d, HexDigit c d → d < 16 := by
            intro c d h; rcases h with h | h <;> omega
          have := lt16 _ _ h1; have := lt16 _ _ h2
          rw [UInt8.toNat_ofNat']; omega
    · rw [Hex.unescape_cons_ne _ _ ha]
      exact .plain ha (unescape_unescaped (b :: c :: s))
  termination_by s.length

theorem unescape_iff (s v : Bytes) : Unescaped s v ↔ Hex.unescape s = v := by
  constructor
  · intro h
    induction h with
    | nil => rfl
    | plain ha _ ih => rw [Hex.unescape_cons_ne _ _ ha, ih]
    | @hex b c x h l s v hb hc hx _ ih =>
      rw [Hex.C20_wellformed b c h l s hb hc, ih]
      congr 1
      rw [← hx]; exact UInt8.ofNat_toNat
    | @bad b c s v hbc _ ih =>
      rw [(Hex.C20_malformed 0 b c s).2.1 ?_, ih]
      by_cases h : ∃ d, HexDigit b d
      · exact Or.inr (fun h' => hbc ⟨h, h'⟩)
      · exact Or.inl h
    | last => rfl
    | last2 => rfl
  · rintro rfl; exact unescape_unescaped s

theorem mkComp_iff (t : Nat) (v : Bytes) (c : Comp) : mkComp t v = some c ↔ c = ⟨t, v⟩ ∧ ValidComp ⟨t, v⟩ := by
  unfold mkComp
  by_cases h : ensureValid ⟨t, v⟩ = true
  · rw [if_pos h]
    constructor
    · intro e; cases e; exact ⟨rfl, (ensureValid_iff _).mp h⟩
    · rintro ⟨rfl, -⟩; rfl
  · rw [if_neg h]
    constructor
    · intro e; cases e
    · rintro ⟨-, hv⟩; exact absurd ((ensureValid_iff _).mpr hv) h

theorem dots_iff (v : Bytes) : v.all (· = 46) = true ↔ Dots v := by simp [Dots]

theorem parseEscaped_iff (t : Nat) (s : Bytes) (c : Comp) :
    parseEscaped t s = some c ↔ ∃ v, ValueText s v ∧ c = ⟨t, v⟩ ∧ ValidComp ⟨t, v⟩ := by
  unfold parseEscaped
  dsimp only
  by_cases hd : (Hex.unescape s).all (· = 46) = true
  · rw [if_pos hd]
    have hr := all_dots hd
    have hds := (dots_iff _).mp hd
    by_cases hl : (Hex.unescape s).length < 3
    · rw [if_pos hl]
      constructor
      · intro e; cases e
      · rintro ⟨v, hv | hv, -⟩
        · rw [unescape_iff] at hv
          rw [hv.1] at hds; exact absurd hds hv.2
        · rw [unescape_iff] at hv
          rw [hv.1] at hl; simp at hl; omega
    · rw [if_neg hl, mkComp_iff]
      have e3 : Hex.unescape s = [46, 46, 46] ++ (Hex.unescape s).take ((Hex.unescape s).length - 3) := by
        obtain ⟨k, hk⟩ : ∃ k, (Hex.unescape s).length = 3 + k := ⟨_, (by omega : _ = 3 + ((Hex.unescape s).length - 3))⟩
        rw [hk] at hr ⊢
        conv => lhs; rw [hr]
        rw [hr, List.take_replicate, show min (3 + k - 3) (3 + k) = k by omega, ← List.replicate_append_replicate]
        rfl
      constructor
      · rintro ⟨rfl, hv⟩
        refine ⟨_, Or.inr ⟨(unescape_iff _ _).mpr e3, ?_⟩, rfl, hv⟩
        exact fun c hc => hds c (List.mem_of_mem_take hc)
      · rintro ⟨v, hv | hv, rfl, hw⟩
        · rw [unescape_iff] at hv
          rw [hv.1] at hds; exact absurd hds hv.2
        · rw [unescape_iff] at hv
          have : (Hex.unescape s).take ((Hex.unescape s).length - 3) = v := by
            have h := e3
            rw [hv.1] at h ⊢
            exact (List.append_cancel_left h).symm
          rw [this]; exact ⟨rfl, hw⟩
  · rw [if_neg hd, mkComp_iff]
    constructor
    · rintro ⟨rfl, hv⟩
      exact ⟨_, Or.inl ⟨(unescape_iff _ _).mpr rfl, fun h => hd ((dots_iff _).mpr h)⟩, rfl, hv⟩
    · rintro ⟨v, hv | hv, rfl, hw⟩
      · rw [unescape_iff] at hv
        rw [hv.1]; exact ⟨rfl, hw⟩
      · rw [unescape_iff] at hv
        exfalso
        apply hd
        rw [dots_iff, hv.1]
        intro c hc
        rcases List.mem_append.mp hc with h | h
        · simpa using h
        · exact hv.2 c h

theorem shortest_iff (v : Bytes) (n : Nat) (hn : n < 2 ^ 64) : ShortestNumber v n ↔ v = writeNonNegativeInteger n := by
  have hw : ShortestNumber (writeNonNegativeInteger n) n := by
    unfold writeNonNegativeInteger
    split
    · refine ⟨?_, Or.inl rfl⟩
      simp [beNat]; omega
    split
    · exact ⟨beNat_beBytes_of_lt (by omega), Or.inr (Or.inl ⟨by simp, by omega⟩)⟩
    split
    · exact ⟨beNat_beBytes_of_lt (by omega), Or.inr (Or.inr (Or.inl ⟨by simp, by omega⟩))⟩
    · exact ⟨beNat_beBytes_of_lt (by omega), Or.inr (Or.inr (Or.inr ⟨by simp, by omega⟩))⟩
  constructor
  · intro h
    refine beNat_inj ?_ (h.1.trans hw.1.symm)
    have b1 := beNat_lt v
    have b2 := beNat_lt (writeNonNegativeInteger n)
    rw [h.1] at b1
    rw [hw.1] at b2
    rcases h.2 with h1 | h1 | h1 | h1 <;> rcases hw.2 with h2 | h2 | h2 | h2 <;>
      (simp only [h1, h2] at b1 b2 ⊢) <;> omega
  · rintro rfl; exact hw

theorem fromHex_iff (s v : Bytes) : Hex.fromHex s = some v ↔ HexForm s v := by
  have := Hex.C40_decode_iff [s] v
  simpa [Hex.fromHex] using this

theorem parseSha_iff (t : Nat) (ht : t = 1 ∨ t = 2) (s : Bytes) (c : Comp) :
    parseSha256 t s = some c ↔ ∃ v, HexForm s v ∧ v.length = 32 ∧ c = ⟨t, v⟩ := by
  unfold parseSha256
  cases h : Hex.fromHex s with
  | none =>
    constructor
    · intro e; cases e
    · rintro ⟨v, hv, -⟩
      rw [(fromHex_iff _ _).mpr hv] at h; cases h
  | some v =>
    dsimp only
    rw [mkComp_iff]
    constructor
    · rintro ⟨rfl, hv⟩
      exact ⟨v, (fromHex_iff _ _).mp h, hv.2.2 ht, rfl⟩
    · rintro ⟨w, hw, hl, rfl⟩
      rw [(fromHex_iff _ _).mpr hw] at h
      cases h
      exact ⟨rfl, by show 1 ≤ t; omega, by show t ≤ 65535; omega, fun _ => hl⟩

theorem parseDecimal_iff (t : Nat) (ht : 3 ≤ t ∧ t ≤ 65535) (s : Bytes) (c : Comp) :
    parseDecimal t s = some c ↔ ∃ n v, Decimal s n ∧ n < 2 ^ 64 ∧ ShortestNumber v n ∧ c = ⟨t, v⟩ := by
  unfold parseDecimal fromNumber
  dsimp only
  constructor
  · intro h
    split at h
    · rename_i hc
      rw [mkComp_iff] at h
      exact ⟨_, _, (decimal_iff _ _).mpr hc.2.symm, hc.1, (shortest_iff _ _ hc.1).mpr rfl, h.1⟩
    · cases h
  · rintro ⟨n, v, hd, hn, hv, rfl⟩
    rw [decimal_iff] at hd
    rw [shortest_iff _ _ hn] at hv
    subst hd; subst hv
    rw [leadNumber_dec, if_pos ⟨hn, rfl⟩, mkComp_iff]
    exact ⟨rfl, by show 1 ≤ t; omega, ht.2, fun h => by have : t = 1 ∨ t = 2 := h; omega⟩

theorem digestType_iff (p : Bytes) (t : Nat) : DigestType p t ↔ (p = pSha256digest ∧ t = 1) ∨ (p = pParamsSha256 ∧ t = 2) := by
  have h1 : text "sha256digest" = pSha256digest := by decide +kernel
  have h2 : text "params-sha256" = pParamsSha256 := by decide +kernel
  rw [DigestType, h1, h2]

theorem numberType_iff (p : Bytes) (t : Nat) : NumberType p t ↔ (p = pSeg ∧ t = 50) ∨ (p = pOff ∧ t = 52) ∨
    (p = pV ∧ t = 54) ∨ (p = pT ∧ t = 56) ∨ (p = pSeq ∧ t = 58) := by
  have h1 : text "seg" = pSeg := by decide +kernel
  have h2 : text "off" = pOff := by decide +kernel
  have h3 : text "v" = pV := by decide +kernel
  have h4 : text "t" = pT := by decide +kernel
  have h5 : text "seq" = pSeq := by decide +kernel
  rw [NumberType, h1, h2, h3, h4, h5]

theorem parseAlt_iff (p s : Bytes) (c : Comp) : parseAlt p s = some c ↔
    (∃ t v, DigestType p t ∧ HexForm s v ∧ v.length = 32 ∧ c = ⟨t, v⟩) ∨
    (∃ t n v, NumberType p t ∧ Decimal s n ∧ n < 2 ^ 64 ∧ ShortestNumber v n ∧ c = ⟨t, v⟩) := by
  have dg : ∀ t, (t = 1 ∨ t = 2) → (∀ t', DigestType p t' ↔ t' = t) → (∀ t', ¬ NumberType p t') →
      (parseSha256 t s = some c ↔
      (∃ t v, DigestType p t ∧ HexForm s v ∧ v.length = 32 ∧ c = ⟨t, v⟩) ∨
      (∃ t n v, NumberType p t ∧ Decimal s n ∧ n < 2 ^ 64 ∧ ShortestNumber v n ∧ c = ⟨t, v⟩)) := by
    intro t ht hd hn
    rw [parseSha_iff t ht]
    constructor
    · rintro ⟨v, h⟩; exact Or.inl ⟨t, v, (hd t).mpr rfl, h⟩
    · rintro (⟨t', v, h1, h⟩ | ⟨t', n, v, h1, -⟩)
      · rw [hd] at h1; subst h1; exact ⟨v, h⟩
      · exact absurd h1 (hn t')
  have nm : ∀ t, (3 ≤ t ∧ t ≤ 65535) → (∀ t', NumberType p t' ↔ t' = t) → (∀ t', ¬ DigestType p t') →
      (parseDecimal t s = some c ↔
      (∃ t v, DigestType p t ∧ HexForm s v ∧ v.length = 32 ∧ c = ⟨t, v⟩) ∨
      (∃ t n v, NumberType p t ∧ Decimal s n ∧ n < 2 ^ 64 ∧ ShortestNumber v n ∧ c = ⟨t, v⟩)) := by
    intro t ht hd hn
    rw [parseDecimal_iff t ht]
    constructor
    · rintro ⟨n, v, h⟩; exact Or.inr ⟨t, n, v, (hd t).mpr rfl, h⟩
    · rintro (⟨t', v, h1, h⟩ | ⟨t', n, v, h1, h⟩)
      · exact absurd h1 (hn t')
      · rw [hd] at h1; subst h1; exact ⟨n, v, h⟩
  have k : ∀ t', (DigestType p t' ↔ (p = pSha256digest ∧ t' = 1) ∨ (p = pParamsSha256 ∧ t' = 2)) := digestType_iff p
  have k' := numberType_iff p
  unfold parseAlt
  by_cases h1 : p = pSha256digest
  · rw [if_pos h1]; subst h1
    exact dg 1 (by omega) (fun t' => by rw [k]; simp [show pSha256digest ≠ pParamsSha256 by decide])
      (fun t' => by rw [k']; simp [show pSha256digest ≠ pSeg by decide, show pSha256digest ≠ pOff by decide,
        show pSha256digest ≠ pV by decide, show pSha256digest ≠ pT by decide, show pSha256digest ≠ pSeq by decide])
  rw [if_neg h1]
  by_cases h2 : p = pParamsSha256
  · rw [if_pos h2]; subst h2
    exact dg 2 (by omega) (fun t' => by rw [k]; simp [h1])
      (fun t' => by rw [k']; simp [show pParamsSha256 ≠ pSeg by decide, show pParamsSha256 ≠ pOff by decide,
        show pParamsSha256 ≠ pV by decide, show pParamsSha256 ≠ pT by decide, show pParamsSha256 ≠ pSeq by decide])
  rw [if_neg h2]
  have nod : ∀ t', ¬ DigestType p t' := fun t' => by rw [k]; simp [h1, h2]
  by_cases h3 : p = pSeg
  · rw [if_pos h3]; subst h3
    exact nm 50 (by omega) (fun t' => by rw [k']; simp [show pSeg ≠ pOff by decide,
        show pSeg ≠ pV by decide, show pSeg ≠ pT by decide, show pSeg ≠ pSeq by decide]) nod
  rw [if_neg h3]
  by_cases h4 : p = pOff
  · rw [if_pos h4]; subst h4
    exact nm 52 (by omega) (fun t' => by rw [k']; simp [h3,
        show pOff ≠ pV by decide, show pOff ≠ pT by decide, show pOff ≠ pSeq by decide]) nod
  rw [if_neg h4]
  by_cases h5 : p = pV
  · rw [if_pos h5]; subst h5
    exact nm 54 (by omega) (fun t' => by rw [k']; simp [h3, h4, show pV ≠ pT by decide, show pV ≠ pSeq by decide]) nod
  rw [if_neg h5]
  by_cases h6 : p = pT
  · rw [if_pos h6]; subst h6
    exact nm 56 (by omega) (fun t' => by rw [k']; simp [h3, h4, h5, show pT ≠ pSeq by decide]) nod
  rw [if_neg h6]
  by_cases h7 : p = pSeq
  · rw [if_pos h7]; subst h7
    exact nm 58 (by omega) (fun t' => by rw [k']; simp [h3, h4, h5, h6]) nod
  rw [if_neg h7]
  constructor
  · intro e; cases e
  · rintro (⟨t', v, h, -⟩ | ⟨t', n, v, h, -⟩)
    · exact absurd h (nod t')
    · rw [k'] at h; simp [h3, h4, h5, h6, h7] at h

theorem altName_facts {p : Bytes} {t : Nat} (h : DigestType p t ∨ NumberType p t) :
    leadNumber p = 0 ∧ ∀ c ∈ p, c ≠ 61 := by
  rw [digestType_iff, numberType_iff] at h
  rcases h with (h | h) | h | h | h | h | h <;> (obtain ⟨rfl, -⟩ := h; exact ⟨by decide, by decide⟩)

theorem compFromUri_iff (s : Bytes) (c : Comp) : compFromUri s = some c ↔ Denotes s c := by
  constructor
  · intro h
    by_cases he : (61 : UInt8) ∈ s
    · obtain ⟨p, r, rfl, hp⟩ : ∃ p r, s = p ++ 61 :: r ∧ ∀ c ∈ p, c ≠ 61 := by
        have hsplit := List.takeWhile_append_dropWhile (p := fun x => decide (x ≠ (61 : UInt8))) (l := s)
        have hall : ∀ c ∈ s.takeWhile (fun x => decide (x ≠ (61 : UInt8))), c ≠ 61 := by
          intro c hc
          have := List.all_takeWhile (p := fun x => decide (x ≠ (61 : UInt8))) (l := s)
          rw [List.all_eq_true] at this
          simpa using this c hc
        cases hd : s.dropWhile (fun x => decide (x ≠ (61 : UInt8))) with
        | nil =>
          rw [hd, List.append_nil] at hsplit
          rw [← hsplit] at he
          exact absurd rfl (hall _ he)
        | cons a r =>
          have ha : a = 61 := by
            have := List.head?_dropWhile_not (p := fun x => decide (x ≠ (61 : UInt8))) (l := s)
            rw [hd] at this
            simpa using this
          rw [hd, ha] at hsplit
          exact ⟨_, r, hsplit.symm, hall⟩
      rw [compFromUri_eq _ _ hp] at h
      rw [show p ++ 61 :: r = p ++ [61] ++ r by simp]
      split at h
      · rename_i hn
        obtain ⟨v, hv, rfl, hw⟩ := (parseEscaped_iff _ _ _).mp h
        exact .typed ((decimal_iff _ _).mpr hn.2.2.symm) hn.1 hn.2.1 hw.2.2 hv
      · rcases (parseAlt_iff _ _ _).mp h with ⟨t, v, h1, h2, h3, rfl⟩ | ⟨t, n, v, h1, h2, h3, h4, rfl⟩
        · exact .digest h1 h2 h3
        · exact .number h1 h2 h3 h4
    · unfold compFromUri at h
      rw [if_pos he] at h
      obtain ⟨v, hv, rfl, -⟩ := (parseEscaped_iff _ _ _).mp h
      exact .generic he hv
  · intro h
    cases h with
    | generic hs hv =>
      unfold compFromUri
      rw [if_pos hs, parseEscaped_iff]
      exact ⟨_, hv, rfl, (by decide : 1 ≤ 8), (by decide : 8 ≤ 65535), fun h => by simp at h⟩
    | @typed p s v t hp h1 h2 h32 hv =>
      rw [decimal_iff] at hp
      subst hp
      rw [List.append_assoc, List.singleton_append, compFromUri_eq _ _ (fun x hx => (dec_plain t x hx).2.2), leadNumber_dec,
        if_pos ⟨h1, h2, rfl⟩, parseEscaped_iff]
      exact ⟨v, hv, rfl, h1, h2, h32⟩
    | @digest p s v t hp hv h32 =>
      obtain ⟨h0, hq⟩ := altName_facts (Or.inl hp)
      rw [List.append_assoc, List.singleton_append, compFromUri_eq _ _ hq, h0, if_neg (by omega), parseAlt_iff]
      exact Or.inl ⟨t, v, hp, hv, h32, rfl⟩
    | @number p s v t n hp hs hn hv =>
      obtain ⟨h0, hq⟩ := altName_facts (Or.inr hp)
      rw [List.append_assoc, List.singleton_append, compFromUri_eq _ _ hq, h0, if_neg (by omega), parseAlt_iff]
      exact Or.inr ⟨t, n, v, hp, hs, hn, hv, rfl⟩

theorem uriLoop_iff (ps : List Bytes) (hps : ∀ q ∈ ps, (47 : UInt8) ∉ q) :
    ∀ (p : Bytes) (f : Nat) (cs : List Comp), (47 : UInt8) ∉ p → (joined p ps).length ≤ f →
      (uriLoop f (joined p ps) = some cs ↔ DenoteAll (compTexts (p :: ps)) cs) := by
  induction ps with
  | nil =>
    intro p f cs hp hf
    have hj : joined p [] = p := by simp [joined]
    rw [hj] at hf ⊢
    by_cases h0 : p = []
    · subst h0
      have : uriLoop f [] = some [] := by cases f <;> simp [uriLoop]
      rw [this]
      constructor
      · intro e; cases e; exact .nil
      · intro e; cases e; rfl
    · cases f with
      | zero => simp at hf; exact absurd hf h0
      | succ f =>
        have ht : p.takeWhile (fun x => decide (x ≠ (47 : UInt8))) = p :=
          takeWhile_all _ _ (fun c hc => by simpa using fun e => hp (by rw [← e]; exact hc))
        simp only [uriLoop]
        rw [if_neg h0, ht]
        rw [show compTexts [p] = [p] by simp [compTexts, h0]]
        cases hc : compFromUri p with
        | none =>
          constructor
          · intro e; cases e
          · intro e
            cases e with
            | cons h _ => rw [(compFromUri_iff _ _).mpr h] at hc; cases hc
        | some c =>
          dsimp only
          rw [if_pos (by omega)]
          constructor
          · intro e; cases e; exact .cons ((compFromUri_iff _ _).mp hc) .nil
          · intro e
            cases e with
            | cons h hs =>
              cases hs
              rw [(compFromUri_iff _ _).mpr h] at hc; cases hc; rfl
  | cons q ps ih =>
    intro p f cs hp hf
    have hj : joined p (q :: ps) = p ++ 47 :: joined q ps := by simp [joined]
    rw [hj] at hf ⊢
    obtain ⟨ht, -⟩ := takeWhile_stop 47 p (joined q ps) hp
    cases f with
    | zero => simp at hf
    | succ f =>
      have hlen : (p ++ 47 :: joined q ps).length = p.length + 1 + (joined q ps).length := by simp; omega
      simp only [uriLoop]
      rw [if_neg (by simp), ht]
      have hd : (p ++ 47 :: joined q ps).drop (p.length + 1) = joined q ps := by
        rw [show p ++ 47 :: joined q ps = (p ++ [47]) ++ joined q ps by simp]
        exact List.drop_left' (by simp)
      rw [hd, hlen]
      have step : compTexts (p :: q :: ps) = p :: compTexts (q :: ps) := rfl
      rw [step]
      cases hc : compFromUri p with
      | none =>
        constructor
        · intro e; cases e
        · intro e
          cases e with
          | cons h _ => rw [(compFromUri_iff _ _).mpr h] at hc; cases hc
      | some c =>
        dsimp only
        by_cases hz : joined q ps = []
        · rw [if_pos (by rw [hz]; simp)]
          have hq : q = [] ∧ ps = [] := by
            unfold joined at hz
            rw [List.append_eq_nil_iff] at hz
            refine ⟨hz.1, ?_⟩
            cases ps with
            | nil => rfl
            | cons a b => simp at hz
          obtain ⟨rfl, rfl⟩ := hq
          have : compTexts [([] : Bytes)] = [] := by simp [compTexts]
          rw [this]
          constructor
          · intro e; cases e; exact .cons ((compFromUri_iff _ _).mp hc) .nil
          · intro e
            cases e with
            | cons h hs =>
              cases hs
              rw [(compFromUri_iff _ _).mpr h] at hc; cases hc; rfl
        · have hpos : 0 < (joined q ps).length := List.length_pos_iff.mpr hz
          rw [if_neg (by omega), Option.map_eq_some_iff]
          have ih' := fun cs => ih (fun r hr => hps r (by simp [hr])) q f cs (hps q (by simp)) (by omega)
          constructor
          · rintro ⟨ds, hds, rfl⟩
            exact .cons ((compFromUri_iff _ _).mp hc) ((ih' ds).mp hds)
          · intro e
            cases e with
            | @cons _ d _ ds h hs =>
              rw [(compFromUri_iff _ _).mpr h] at hc; cases hc
              exact ⟨ds, (ih' ds).mpr hs, rfl⟩

end Ndn.Name
