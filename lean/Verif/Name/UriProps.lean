import Verif.Name.OrderLemmas
import Verif.Hex.Props
/-
C14: names and components survive printing as URI and parsing. C15: parsing yields valid components.
-/
namespace Ndn.Name
open Spec Tlv

/-! ### Decimal numbers -/

def digitsVal (s : Bytes) : Nat := s.foldl (fun acc c => acc * 10 + (c.toNat - 48)) 0

theorem digit_toNat {n : Nat} (h : n < 10) : (UInt8.ofNat (48 + n)).toNat = 48 + n := by
  rw [UInt8.toNat_ofNat']; omega

theorem decFuel_spec : ∀ (f n : Nat), n ≤ f → (∀ c ∈ decFuel f n, isDigit c = true) ∧ decFuel f n ≠ [] ∧
    digitsVal (decFuel f n) = n := by
  intro f
  induction f with
  | zero =>
    intro n hn
    have : n = 0 := by omega
    subst this
    decide
  | succ f ih =>
    intro n hn
    unfold decFuel
    by_cases h : n < 10
    · rw [if_pos h]
      refine ⟨?_, by simp, ?_⟩
      · intro c hc
        simp only [List.mem_singleton] at hc
        subst hc
        simp only [isDigit, digit_toNat h, Bool.and_eq_true, decide_eq_true_eq]
        omega
      · simp only [digitsVal, List.foldl_cons, List.foldl_nil, digit_toNat h]; omega
    · rw [if_neg h]
      obtain ⟨h1, h2, h3⟩ := ih (n / 10) (by omega)
      have hm : n % 10 < 10 := by omega
      refine ⟨?_, by simp, ?_⟩
      · intro c hc
        rcases List.mem_append.mp hc with hc | hc
        · exact h1 c hc
        · simp only [List.mem_singleton] at hc
          subst hc
          simp only [isDigit, digit_toNat hm, Bool.and_eq_true, decide_eq_true_eq]
          omega
      · unfold digitsVal at h3 ⊢
        rw [List.foldl_append, h3]
        simp only [List.foldl_cons, List.foldl_nil, digit_toNat hm]
        omega

theorem takeWhile_all {α} (p : α → Bool) (l : List α) (h : ∀ c ∈ l, p c = true) : l.takeWhile p = l := by
  induction l with
  | nil => rfl
  | cons a l ih =>
    rw [List.takeWhile_cons, if_pos (h a (by simp)), ih (fun c hc => h c (by simp [hc]))]

theorem leadNumber_dec (n : Nat) : leadNumber (dec n) = n := by
  obtain ⟨h1, _, h3⟩ := decFuel_spec n n (by omega)
  unfold leadNumber dec
  rw [takeWhile_all _ _ h1]
  exact h3

theorem dec_digits (n : Nat) : ∀ c ∈ dec n, 48 ≤ c.toNat ∧ c.toNat ≤ 57 := by
  intro c hc
  have := (decFuel_spec n n (by omega)).1 c hc
  simpa [isDigit] using this

theorem dec_ne_nil (n : Nat) : dec n ≠ [] := (decFuel_spec n n (by omega)).2.1

/-! ### No separators in printed components -/

/-- Octets other than `/`, `:` and `=`. -/
def Plain (s : Bytes) : Prop := ∀ c ∈ s, c ≠ 47 ∧ c ≠ 58 ∧ c ≠ 61
/-- Octets other than `/` and `:`. -/
def NoSep (s : Bytes) : Prop := ∀ c ∈ s, c ≠ 47 ∧ c ≠ 58

theorem Plain.noSep {s : Bytes} (h : Plain s) : NoSep s := fun c hc => ⟨(h c hc).1, (h c hc).2.1⟩

theorem Plain.append {s t : Bytes} (h : Plain s) (h' : Plain t) : Plain (s ++ t) := by
  intro c hc
  rcases List.mem_append.mp hc with hc | hc
  · exact h c hc
  · exact h' c hc

theorem NoSep.append {s t : Bytes} (h : NoSep s) (h' : NoSep t) : NoSep (s ++ t) := by
  intro c hc
  rcases List.mem_append.mp hc with hc | hc
  · exact h c hc
  · exact h' c hc

theorem dec_plain (n : Nat) : Plain (dec n) := by
  intro c hc
  have := dec_digits n c hc
  refine ⟨?_, ?_, ?_⟩ <;> (rintro rfl; revert this; decide)

theorem hexDigit_plain {c : UInt8} {d : Nat} (h : Hex.Spec.HexDigit c d) : c ≠ 47 ∧ c ≠ 58 ∧ c ≠ 61 := by
  rw [← Hex.fromHexChar_iff] at h
  refine ⟨?_, ?_, ?_⟩ <;> (rintro rfl; revert h; simp [Hex.fromHexChar])

theorem escape_plain (v : Bytes) : Plain (Hex.escape v) := by
  induction v with
  | nil => simp [Hex.escape, Plain]
  | cons a v ih =>
    unfold Hex.escape
    split
    · rename_i h
      intro c hc
      rcases List.mem_cons.mp hc with rfl | hc
      · refine ⟨?_, ?_, ?_⟩ <;> (rintro rfl; revert h; decide)
      · exact ih c hc
    · intro c hc
      simp only [List.mem_cons] at hc
      rcases hc with rfl | rfl | rfl | hc
      · decide
      · exact hexDigit_plain (Hex.toHexChar_digit _ true)
      · exact hexDigit_plain (Hex.toHexChar_digit _ true)
      · exact ih c hc

theorem escapedValue_plain (v : Bytes) : Plain (escapedValue v) := by
  unfold escapedValue
  refine Plain.append ?_ (escape_plain v)
  split
  · intro c hc
    simp at hc; subst hc; decide
  · simp [Plain]

theorem hexForm_plain {s bs : Bytes} (h : Hex.Spec.HexForm s bs) : Plain s := by
  induction h with
  | nil => simp [Plain]
  | cons h1 h2 _ _ ih =>
    intro c hc
    simp only [List.mem_cons] at hc
    rcases hc with rfl | rfl | hc
    · exact hexDigit_plain h1
    · exact hexDigit_plain h2
    · exact ih c hc

/-! ### One component -/

theorem takeWhile_plain {s : Bytes} (a : UInt8) (rest : Bytes) (h : ∀ c ∈ s, c ≠ a) :
    (s ++ a :: rest).takeWhile (· ≠ a) = s ∧ (s ++ a :: rest).dropWhile (· ≠ a) = a :: rest := by
  induction s with
  | nil => simp
  | cons c s ih =>
    have hc : c ≠ a := h c (by simp)
    have := ih (fun c hc => h c (by simp [hc]))
    simp only [List.cons_append, List.takeWhile_cons, List.dropWhile_cons]
    simp only [hc, ne_eq, not_false_eq_true, decide_true, if_true]
    exact ⟨by rw [this.1], this.2⟩

theorem all_dots {v : Bytes} (h : v.all (· = 46) = true) : v = List.replicate v.length 46 := by
  rw [List.eq_replicate_iff]
  refine ⟨rfl, fun b hb => ?_⟩
  simpa using (List.all_eq_true.mp h) b hb

theorem parseEscaped_escapedValue (t : Nat) (v : Bytes) (h : ValidComp ⟨t, v⟩) :
    parseEscaped t (escapedValue v) = some ⟨t, v⟩ := by
  have hm : mkComp t v = some ⟨t, v⟩ := by
    unfold mkComp; rw [if_pos ((ensureValid_iff _).mpr h)]
  have hu : Hex.unescape (Hex.escape v) = v := Hex.unescape_form (Hex.escape_form v)
  unfold parseEscaped escapedValue
  by_cases hd : v.all (· = 46) = true
  · rw [if_pos hd]
    have : Hex.unescape ([46, 46, 46] ++ Hex.escape v) = [46, 46, 46] ++ v := by
      simp only [List.cons_append, List.nil_append]
      rw [Hex.unescape_cons_ne _ _ (by decide), Hex.unescape_cons_ne _ _ (by decide),
        Hex.unescape_cons_ne _ _ (by decide), hu]
    simp only [this]
    rw [if_pos (by simpa using hd), if_neg (by simp)]
    have e : ([46, 46, 46] ++ v).take (([46, 46, 46] ++ v).length - 3) = v := by
      have hlen : ([46, 46, 46] ++ v : Bytes).length - 3 = v.length := by simp
      rw [hlen]
      have : ([46, 46, 46] ++ v : Bytes) = List.replicate (3 + v.length) 46 := by
        conv => lhs; rw [all_dots hd]
        rw [← List.replicate_append_replicate]; rfl
      rw [this, List.take_replicate, show min v.length (3 + v.length) = v.length by omega]
      exact (all_dots hd).symm
    rw [e, hm]
  · rw [if_neg hd]
    simp only [List.nil_append, hu]
    rw [if_neg hd, hm]

theorem compFromUri_eq (p rest : Bytes) (hp : ∀ c ∈ p, c ≠ 61) : compFromUri (p ++ 61 :: rest) =
    if 1 ≤ leadNumber p ∧ leadNumber p ≤ 65535 ∧ dec (leadNumber p) = p then parseEscaped (leadNumber p) rest
    else parseAlt p rest := by
  obtain ⟨h1, h2⟩ := takeWhile_plain 61 rest hp
  unfold compFromUri
  rw [if_neg (by simp)]
  simp only [h1, h2, List.drop_succ_cons, List.drop_zero]

theorem fromUri_canonical (c : Comp) (h : ValidComp c) : compFromUri c.uriCanonical = some c := by
  unfold Comp.uriCanonical
  rw [List.append_assoc, List.singleton_append,
    compFromUri_eq _ _ (fun x hx => (dec_plain c.type x hx).2.2), leadNumber_dec,
    if_pos ⟨h.1, h.2.1, rfl⟩, parseEscaped_escapedValue _ _ h]

/-- The number in a number-typed component is in the shortest form. -/
def Spec.ShortNumber (c : Comp) : Prop :=
  (c.type = 50 ∨ c.type = 52 ∨ c.type = 54 ∨ c.type = 56 ∨ c.type = 58) →
  (c.value.length = 1 ∨ c.value.length = 2 ∨ c.value.length = 4 ∨ c.value.length = 8) →
  c.value = writeNonNegativeInteger (beNat c.value)

theorem beNat_lt_64 {v : Bytes} (h : v.length ≤ 8) : beNat v < 2 ^ 64 := by
  have := beNat_lt v
  calc beNat v < 256 ^ v.length := this
    _ ≤ 256 ^ 8 := Nat.pow_le_pow_right (by omega) h
    _ = 2 ^ 64 := by decide

theorem parseDecimal_dec (t : Nat) (v : Bytes) (hv : ValidComp ⟨t, v⟩) (hl : v.length ≤ 8)
    (hs : v = writeNonNegativeInteger (beNat v)) : parseDecimal t (dec (beNat v)) = some ⟨t, v⟩ := by
  unfold parseDecimal
  simp only [leadNumber_dec]
  rw [if_pos ⟨beNat_lt_64 hl, trivial⟩]
  unfold fromNumber mkComp
  rw [← hs, if_pos ((ensureValid_iff _).mpr hv)]

theorem alt_decimal (c : Comp) (p : Bytes) (hv : ValidComp c) (hp : ∀ x ∈ p, x ≠ 61)
    (hn : leadNumber p = 0) (hpa : ∀ s, parseAlt p s = parseDecimal c.type s)
    (hu : c.uriAlternate = if isNumber c.value then p ++ [61] ++ dec (beNat c.value) else c.uriCanonical)
    (hs : isNumber c.value = true → c.value = writeNonNegativeInteger (beNat c.value)) :
    compFromUri c.uriAlternate = some c := by
  rw [hu]
  by_cases h : isNumber c.value = true
  · rw [if_pos h, List.append_assoc, List.singleton_append, compFromUri_eq _ _ hp, hn, if_neg (by omega), hpa]
    refine parseDecimal_dec _ _ hv ?_ (hs h)
    simp only [isNumber, Bool.or_eq_true, decide_eq_true_eq] at h
    omega
  · rw [if_neg h, fromUri_canonical c hv]

theorem alt_sha (c : Comp) (p : Bytes) (hv : ValidComp c) (hp : ∀ x ∈ p, x ≠ 61)
    (hn : leadNumber p = 0) (hpa : ∀ s, parseAlt p s = parseSha256 c.type s)
    (hu : c.uriAlternate = p ++ [61] ++ Hex.hexEncode false c.value) :
    compFromUri c.uriAlternate = some c := by
  rw [hu, List.append_assoc, List.singleton_append, compFromUri_eq _ _ hp, hn, if_neg (by omega), hpa]
  unfold parseSha256
  have : Hex.fromHex (Hex.hexEncode false c.value) = some c.value :=
    Hex.C40_roundtrip false c.value [_] (by simp)
  rw [this]
  unfold mkComp
  exact if_pos ((ensureValid_iff _).mpr hv)

theorem fromUri_alternate (c : Comp) (h : ValidComp c) (hs : ShortNumber c) :
    compFromUri c.uriAlternate = some c := by
  have hsn : ∀ p, kindOf c.type = .decimal p → isNumber c.value = true →
      c.value = writeNonNegativeInteger (beNat c.value) := by
    intro p hk hn
    simp only [isNumber, Bool.or_eq_true, decide_eq_true_eq] at hn
    refine hs ?_ (by omega)
    unfold kindOf at hk
    (repeat' split at hk) <;> first | omega | simp at hk
  obtain ⟨t, v⟩ := c
  by_cases h1 : t = 1
  · subst h1; exact alt_sha _ pSha256digest h (by decide) (by decide) (fun _ => rfl) rfl
  by_cases h2 : t = 2
  · subst h2; exact alt_sha _ pParamsSha256 h (by decide) (by decide) (fun _ => rfl) rfl
  by_cases h8 : t = 8
  · subst h8
    show compFromUri (escapedValue v) = _
    unfold compFromUri
    rw [if_pos (fun hm => (escapedValue_plain v _ hm).2.2 rfl), parseEscaped_escapedValue _ _ h]
  by_cases h50 : t = 50
  · subst h50; exact alt_decimal _ pSeg h (by decide) (by decide) (fun _ => rfl) rfl (hsn pSeg rfl)
  by_cases h52 : t = 52
  · subst h52; exact alt_decimal _ pOff h (by decide) (by decide) (fun _ => rfl) rfl (hsn pOff rfl)
  by_cases h54 : t = 54
  · subst h54; exact alt_decimal _ pV h (by decide) (by decide) (fun _ => rfl) rfl (hsn pV rfl)
  by_cases h56 : t = 56
  · subst h56; exact alt_decimal _ pT h (by decide) (by decide) (fun _ => rfl) rfl (hsn pT rfl)
  by_cases h58 : t = 58
  · subst h58; exact alt_decimal _ pSeq h (by decide) (by decide) (fun _ => rfl) rfl (hsn pSeq rfl)
  have hk : kindOf t = .base := by
    unfold kindOf; simp [h1, h2, h8, h50, h52, h54, h56, h58]
  have : (⟨t, v⟩ : Comp).uriAlternate = (⟨t, v⟩ : Comp).uriCanonical := by
    unfold Comp.uriAlternate; simp only [hk]
  rw [this, fromUri_canonical _ h]

/-! ### Whole names -/

theorem canonical_noSep (c : Comp) : NoSep c.uriCanonical ∧ c.uriCanonical ≠ [] := by
  unfold Comp.uriCanonical
  refine ⟨?_, by simp⟩
  refine NoSep.append (NoSep.append (dec_plain _).noSep ?_) (escapedValue_plain _).noSep
  intro c hc; simp at hc; subst hc; decide

theorem escapedValue_ne_nil (v : Bytes) : escapedValue v ≠ [] := by
  unfold escapedValue
  cases v with
  | nil => simp
  | cons a v =>
    simp only [Hex.escape]
    (repeat' split) <;> simp

theorem alternate_noSep (c : Comp) : NoSep c.uriAlternate ∧ c.uriAlternate ≠ [] := by
  have eq61 : NoSep [61] := by intro c hc; simp at hc; subst hc; decide
  have hk : ∀ p, kindOf c.type = .sha256 p ∨ kindOf c.type = .decimal p → NoSep p := by
    intro p hp
    unfold kindOf at hp
    (repeat' split at hp) <;> simp at hp <;> subst hp <;> (unfold NoSep; decide)
  unfold Comp.uriAlternate
  split
  · exact canonical_noSep c
  · exact ⟨(escapedValue_plain _).noSep, escapedValue_ne_nil _⟩
  · rename_i p hp
    exact ⟨NoSep.append (NoSep.append (hk p (Or.inl hp)) eq61) (hexForm_plain (Hex.hexEncode_form _ _)).noSep, by simp⟩
  · rename_i p hp
    split
    · exact ⟨NoSep.append (NoSep.append (hk p (Or.inr hp)) eq61) (dec_plain _).noSep, by simp⟩
    · exact canonical_noSep c

theorem uri_noSep (alt : Bool) (c : Comp) : NoSep (c.toUri alt) ∧ c.toUri alt ≠ [] := by
  unfold Comp.toUri; split
  · exact alternate_noSep c
  · exact canonical_noSep c

theorem uriLoop_spec (alt : Bool) (n : List Comp)
    (hp : ∀ c ∈ n, compFromUri (c.toUri alt) = some c) :
    ∀ (c : Comp) (f : Nat), compFromUri (c.toUri alt) = some c →
      (c.toUri alt ++ n.flatMap (fun c => 47 :: c.toUri alt)).length ≤ f →
      uriLoop f (c.toUri alt ++ n.flatMap (fun c => 47 :: c.toUri alt)) = some (c :: n) := by
  induction n with
  | nil =>
    intro c f hc hf
    obtain ⟨hs, hne⟩ := uri_noSep alt c
    simp only [List.flatMap_nil, List.append_nil] at hf ⊢
    cases f with
    | zero => simp at hf; exact absurd hf hne
    | succ f =>
      have : (c.toUri alt).takeWhile (· ≠ 47) = c.toUri alt :=
        takeWhile_all _ _ (fun x hx => by simpa using (hs x hx).1)
      unfold uriLoop
      rw [if_neg hne]
      simp only [this, hc]
      rw [if_pos (by omega)]
  | cons d n ih =>
    intro c f hc hf
    obtain ⟨hs, hne⟩ := uri_noSep alt c
    simp only [List.flatMap_cons, List.cons_append] at hf ⊢
    cases f with
    | zero => simp at hf
    | succ f =>
      obtain ⟨h1, _⟩ := takeWhile_plain (s := c.toUri alt) 47
        (d.toUri alt ++ n.flatMap (fun c => 47 :: c.toUri alt)) (fun x hx => (hs x hx).1)
      have hd := hp d (by simp)
      have hdne := (uri_noSep alt d).2
      have hdpos : 0 < (d.toUri alt).length := List.length_pos_iff.mpr hdne
      unfold uriLoop
      rw [if_neg (by simp)]
      simp only [h1, hc]
      simp only [List.length_append, List.length_cons] at hf
      rw [if_neg (by simp only [List.length_append, List.length_cons]; omega)]
      have hdrop : (c.toUri alt ++ 47 :: (d.toUri alt ++ n.flatMap (fun c => 47 :: c.toUri alt))).drop
          ((c.toUri alt).length + 1) = d.toUri alt ++ n.flatMap (fun c => 47 :: c.toUri alt) := by
        rw [List.drop_append]
        simp
      rw [hdrop, ih (fun c hc => hp c (by simp [hc])) d f hd (by simp only [List.length_append]; omega)]
      rfl

theorem fromUri_toUri (alt : Bool) (n : List Comp) (hp : ∀ c ∈ n, compFromUri (c.toUri alt) = some c) :
    fromUri (toUri alt n) = some n := by
  cases n with
  | nil => cases alt <;> decide
  | cons c n =>
    obtain ⟨hs, hne⟩ := uri_noSep alt c
    have hu : toUri alt (c :: n) = 47 :: (c.toUri alt ++ n.flatMap (fun c => 47 :: c.toUri alt)) := by
      unfold toUri; simp
    have hscheme : stripScheme (toUri alt (c :: n)) = toUri alt (c :: n) := by
      unfold stripScheme
      rw [hu]
      split
      · rw [if_neg]
        simp
      · rfl
    have hauth : stripAuthority (toUri alt (c :: n)) =
        some (c.toUri alt ++ n.flatMap (fun c => 47 :: c.toUri alt)) := by
      rw [hu]
      cases hcu : c.toUri alt with
      | nil => exact absurd hcu hne
      | cons a r =>
        have ha : a ≠ 47 := (hs a (by rw [hcu]; simp)).1
        simp only [List.cons_append, stripAuthority]
        split
        · rename_i heq
          simp only [List.cons.injEq, true_and] at heq
          exact absurd heq.1 ha
        · rename_i heq
          simp only [List.cons.injEq, true_and] at heq
          rw [heq]
        · rename_i h h'
          exact absurd rfl (h' _)
    unfold fromUri
    rw [if_neg (by rw [hu]; simp), hscheme, hauth]
    exact uriLoop_spec alt n (fun c hc => hp c (by simp [hc])) c _ (hp c (by simp)) (by omega)

/-- C14: in the canonical format every name made of valid components survives printing and parsing. -/
theorem C14_canonical (n : List Comp) (h : ValidName n) : fromUri (toUri false n) = some n :=
  fromUri_toUri false n (fun c hc => fromUri_canonical c (h c hc))

theorem C14_component_canonical (c : Comp) (h : ValidComp c) : compFromUri (c.toUri false) = some c :=
  fromUri_canonical c h

/-- C14 in the alternate format, for names whose number-typed components hold shortest numbers. -/
theorem C14_alternate_partial (n : List Comp) (h : ValidName n) (hs : ∀ c ∈ n, ShortNumber c) :
    fromUri (toUri true n) = some n :=
  fromUri_toUri true n (fun c hc => fromUri_alternate c (h c hc) (hs c hc))

theorem C14_component_alternate_partial (c : Comp) (h : ValidComp c) (hs : ShortNumber c) :
    compFromUri (c.toUri true) = some c :=
  fromUri_alternate c h hs

/-- C14, full claim in the alternate format. -/
def C14_alternate_claim : Prop := ∀ n : List Comp, ValidName n → fromUri (toUri true n) = some n

/-- C14: false of the code in the alternate format: the component 50=%00%01 prints as `seg=1`,
which parses as the component 50=%01. -/
theorem C14_alternate_counterexample : ¬ C14_alternate_claim := by
  intro h
  have := h [⟨50, [0, 1]⟩] (by intro c hc; simp at hc; subst hc; exact ⟨by decide, by decide, by decide⟩)
  revert this; decide

/-- C14: the exact extent of the failure: a valid component survives the alternate format iff the
number it may hold is in shortest form. -/
theorem C14_alternate_iff (c : Comp) (h : ValidComp c) :
    compFromUri (c.toUri true) = some c ↔ ShortNumber c := by
  refine ⟨?_, fromUri_alternate c h⟩
  intro hu ht hl
  have hn : isNumber c.value = true := by
    simp only [isNumber, Bool.or_eq_true, decide_eq_true_eq]; omega
  obtain ⟨p, hk, hp, h0, hpa⟩ : ∃ p, kindOf c.type = .decimal p ∧ (∀ x ∈ p, x ≠ (61 : UInt8)) ∧
      leadNumber p = 0 ∧ ∀ s, parseAlt p s = parseDecimal c.type s := by
    obtain ⟨t, v⟩ := c
    simp only at ht
    rcases ht with rfl | rfl | rfl | rfl | rfl
    · exact ⟨pSeg, rfl, by decide, by decide, fun _ => rfl⟩
    · exact ⟨pOff, rfl, by decide, by decide, fun _ => rfl⟩
    · exact ⟨pV, rfl, by decide, by decide, fun _ => rfl⟩
    · exact ⟨pT, rfl, by decide, by decide, fun _ => rfl⟩
    · exact ⟨pSeq, rfl, by decide, by decide, fun _ => rfl⟩
  have he : c.toUri true = p ++ 61 :: dec (beNat c.value) := by
    unfold Comp.toUri Comp.uriAlternate
    simp only [hk, hn, if_true]; simp
  rw [he, compFromUri_eq _ _ hp, h0, if_neg (by omega), hpa] at hu
  unfold parseDecimal at hu
  simp only [leadNumber_dec] at hu
  rw [if_pos ⟨beNat_lt_64 (by omega), trivial⟩] at hu
  unfold fromNumber mkComp at hu
  split at hu
  · simp only [Option.some.injEq] at hu
    have := congrArg Comp.value hu
    exact this.symm
  · simp at hu

/-- A URI path: begins with a slash, not followed by another slash. -/
def IsPath (u : Bytes) : Prop := ∃ r, u = 47 :: r ∧ ∀ x ∈ r.head?, x ≠ (47 : UInt8)

theorem stripScheme_slash (r : Bytes) : stripScheme (47 :: r) = 47 :: r := by
  unfold stripScheme
  by_cases h : (58 : UInt8) ∈ 47 :: r
  · rw [if_pos h, if_neg]
    simp
  · rw [if_neg h]

theorem takeWhile_stop (p : UInt8) (a r : Bytes) (h : p ∉ a) :
    (a ++ p :: r).takeWhile (· ≠ p) = a ∧ (a ++ p :: r).dropWhile (· ≠ p) = p :: r := by
  induction a with
  | nil => simp
  | cons x a ih =>
    have hx : x ≠ p := fun e => h (by simp [e])
    have := ih (fun e => h (by simp [e]))
    constructor
    · rw [List.cons_append, List.takeWhile_cons_of_pos (by simpa using hx), this.1]
    · rw [List.cons_append, List.dropWhile_cons_of_pos (by simpa using hx), this.2]

/-- C14: a scheme in front of the path is skipped. -/
theorem C14_scheme (scheme u : Bytes) (hs : (58 : UInt8) ∉ scheme ∧ (47 : UInt8) ∉ scheme)
    (hu : u ≠ [] ∧ u.head? = some 47) : fromUri (scheme ++ 58 :: u) = fromUri u := by
  obtain ⟨r, rfl⟩ : ∃ r, u = 47 :: r := by
    cases u with
    | nil => exact absurd rfl hu.1
    | cons x r => simp at hu; exact ⟨r, by rw [hu]⟩
  have h1 := (takeWhile_stop 58 scheme (47 :: r) hs.1).1
  have h2 : (scheme ++ 58 :: 47 :: r).takeWhile (· ≠ 47) = scheme ++ [58] := by
    have := (takeWhile_stop 47 (scheme ++ [58]) r (by simp [hs.2])).1
    simpa using this
  have h3 : stripScheme (scheme ++ 58 :: 47 :: r) = 47 :: r := by
    unfold stripScheme
    rw [if_pos (by simp), if_pos (Or.inr (by rw [h1, h2]; simp)), h1]
    have : scheme ++ 58 :: 47 :: r = (scheme ++ [58]) ++ 47 :: r := by simp
    rw [this]
    exact List.drop_left' (by simp)
  unfold fromUri
  rw [if_neg (by simp), if_neg (by simp), h3, stripScheme_slash]

/-- C14: an authority between `//` and the path is skipped. -/
theorem C14_authority (a u : Bytes) (ha : (47 : UInt8) ∉ a) (hu : IsPath u) :
    fromUri (47 :: 47 :: (a ++ u)) = fromUri u := by
  obtain ⟨r, rfl, hr⟩ := hu
  have h1 := (takeWhile_stop 47 a r ha).2
  have h2 : stripAuthority (47 :: 47 :: (a ++ 47 :: r)) = some r := by
    simp only [stripAuthority]
    rw [if_pos (by simp), h1]
    rfl
  have h3 : stripAuthority (47 :: r) = some r := by
    cases r with
    | nil => rfl
    | cons x r =>
      have hx : x ≠ 47 := hr x (by simp)
      simp [stripAuthority, hx]
  unfold fromUri
  rw [if_neg (by simp), if_neg (by simp), stripScheme_slash, stripScheme_slash, h2, h3]

/-- C14: scheme and authority in front of a printed name: parsing gives the name back. -/
theorem C14_with_scheme_and_authority (scheme a : Bytes) (hs : (58 : UInt8) ∉ scheme ∧ (47 : UInt8) ∉ scheme)
    (ha : (47 : UInt8) ∉ a) (n : List Comp) (h : ValidName n) :
    fromUri (scheme ++ 58 :: 47 :: 47 :: (a ++ toUri false n)) = some n := by
  rw [C14_scheme scheme _ hs ⟨by simp, by simp⟩, C14_authority a _ ha ?_, C14_canonical n h]
  unfold toUri IsPath
  by_cases hn : n = []
  · rw [if_pos hn]; exact ⟨[], rfl, by simp⟩
  · rw [if_neg hn]
    cases n with
    | nil => exact absurd rfl hn
    | cons c n =>
      obtain ⟨hs, hne⟩ := uri_noSep false c
      refine ⟨c.toUri false ++ n.flatMap (fun c => 47 :: c.toUri false), by simp, ?_⟩
      cases hcu : c.toUri false with
      | nil => exact absurd hcu hne
      | cons x r =>
        intro y hy
        simp at hy; subst hy
        exact (hs x (by rw [hcu]; simp)).1

example : fromUri [110, 100, 110, 58, 47, 47, 104, 47, 65] = some [⟨8, [65]⟩] := by decide

/-- C14: different names made of valid components print differently (canonical format). -/
theorem C14_injective (a b : List Comp) (ha : ValidName a) (hb : ValidName b)
    (h : toUri false a = toUri false b) : a = b := by
  have h1 := C14_canonical a ha
  rw [h, C14_canonical b hb] at h1
  simpa using h1.symm

example : ValidName [⟨8, [46, 46]⟩, ⟨50, [1]⟩, ⟨1, List.replicate 32 7⟩, ⟨8, []⟩] ∧
    ∀ c ∈ [(⟨8, [46, 46]⟩ : Comp), ⟨50, [1]⟩, ⟨8, []⟩], ShortNumber c := by
  constructor
  · intro c hc
    simp only [List.mem_cons, List.not_mem_nil, or_false] at hc
    rcases hc with rfl | rfl | rfl | rfl <;> exact ⟨by decide, by decide, by decide⟩
  · intro c hc
    simp only [List.mem_cons, List.not_mem_nil, or_false] at hc
    rcases hc with rfl | rfl | rfl <;> (unfold ShortNumber; decide)

/-! ### C15 -/

theorem mkComp_valid {t : Nat} {v : Bytes} {c : Comp} (h : mkComp t v = some c) : ValidComp c := by
  unfold mkComp at h
  split at h
  · rename_i hv
    simp only [Option.some.injEq] at h
    subst h
    exact (ensureValid_iff _).mp hv
  · simp at h

theorem parseEscaped_valid {t : Nat} {s : Bytes} {c : Comp} (h : parseEscaped t s = some c) : ValidComp c := by
  unfold parseEscaped at h
  simp only at h
  split at h
  · split at h
    · simp at h
    · exact mkComp_valid h
  · exact mkComp_valid h

theorem parseAlt_valid {p s : Bytes} {c : Comp} (h : parseAlt p s = some c) : ValidComp c := by
  have h1 : ∀ t, parseSha256 t s = some c → ValidComp c := by
    intro t h
    unfold parseSha256 at h
    split at h
    · simp at h
    · exact mkComp_valid h
  have h2 : ∀ t, parseDecimal t s = some c → ValidComp c := by
    intro t h
    unfold parseDecimal at h
    simp only at h
    split at h
    · exact mkComp_valid h
    · simp at h
  unfold parseAlt at h
  (repeat' split at h) <;> first | exact h1 _ h | exact h2 _ h | simp at h

/-- C15: whatever the string, a component obtained from it is valid. -/
theorem C15_component (s : Bytes) (c : Comp) (h : compFromUri s = some c) : ValidComp c := by
  unfold compFromUri at h
  split at h
  · exact parseEscaped_valid h
  · simp only at h
    split at h
    · exact parseEscaped_valid h
    · exact parseAlt_valid h

/-- C15: whatever the string, a name obtained from it consists of valid components. -/
theorem C15_name (s : Bytes) (n : List Comp) (h : fromUri s = some n) : ValidName n := by
  have loop : ∀ (f : Nat) (u : Bytes) (n : List Comp), uriLoop f u = some n → ValidName n := by
    intro f
    induction f with
    | zero =>
      intro u n h
      unfold uriLoop at h
      split at h
      · simp at h; subst h; simp [ValidName]
      · simp at h
    | succ f ih =>
      intro u n h
      unfold uriLoop at h
      split at h
      · simp at h; subst h; simp [ValidName]
      · simp only at h
        cases hc : compFromUri (u.takeWhile (· ≠ 47)) with
        | none => rw [hc] at h; simp at h
        | some c =>
          rw [hc] at h
          simp only at h
          have hv := C15_component _ _ hc
          split at h
          · simp at h; subst h; simpa [ValidName] using hv
          · simp only [Option.map_eq_some_iff] at h
            obtain ⟨m, hm, rfl⟩ := h
            intro d hd
            rcases List.mem_cons.mp hd with rfl | hd
            · exact hv
            · exact ih _ _ hm d hd
  unfold fromUri at h
  split at h
  · simp at h; subst h; simp [ValidName]
  · split at h
    · simp at h; subst h; simp [ValidName]
    · exact loop _ _ _ h

example : compFromUri [115, 101, 103, 61, 51, 48, 48] = some ⟨50, [1, 44]⟩ ∧
    compFromUri [46, 46] = none ∧ compFromUri [54, 53, 53, 51, 54, 61, 65] = none := by decide

end Ndn.Name
