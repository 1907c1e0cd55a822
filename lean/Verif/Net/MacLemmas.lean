import Verif.Net.Lemmas
namespace Ndn.Net
open Ndn.Net.Spec Ndn.Hex.Spec

theorem hexDigit_facts {c : UInt8} {d : Nat} (h : HexDigit c d) :
    isSpace c = false ∧ c ≠ ch '-' ∧ c ≠ ch '+' ∧ c ≠ ch 'x' ∧ c ≠ ch 'X' ∧ c ≠ 0 ∧ c ≠ ch ':' ∧ d < 16 := by
  have hc : isHex c = true := (isHex_iff c).2 ⟨d, h⟩
  refine ⟨?_, ?_, ?_, ?_, ?_, ?_, ?_, Hex.HexDigit_lt h⟩
  · cases hs : isSpace c with
    | false => rfl
    | true =>
      simp only [isSpace, isHex, Bool.or_eq_true, Bool.and_eq_true, decide_eq_true_eq] at hs hc
      rcases hs with rfl | hs
      · exact absurd hc (by decide)
      · omega
  all_goals (rintro rfl; exact absurd hc (by decide))

theorem fromHexChar_of {c : UInt8} {d : Nat} (h : HexDigit c d) : Hex.fromHexChar c = some d :=
  (Hex.fromHexChar_iff c d).2 h

/-- The text after an octet: nothing, or a character that is no hexadecimal digit and no `x`. -/
def Stop (r : Bytes) : Prop := r = [] ∨ ∃ c t, r = c :: t ∧ Hex.fromHexChar c = none ∧ c ≠ ch 'x' ∧ c ≠ ch 'X'

theorem stop_sep {sep : UInt8} (h : sep = ch ':' ∨ sep = ch '-') (t : Bytes) : Stop (sep :: t) := by
  refine Or.inr ⟨sep, t, rfl, ?_⟩
  rcases h with rfl | rfl <;> decide

theorem scanDigits_stop {r : Bytes} (hr : Stop r) (w v : Nat) : scanDigits w r v = (v, r) := by
  rcases hr with rfl | ⟨c, t, rfl, hc, -⟩
  · cases w <;> rfl
  · cases w with
    | zero => rfl
    | succ w => simp only [scanDigits, hc]

theorem scanHex_octet {s r : Bytes} {b : UInt8} (zx : Bool) (h : Octet s b) (hr : Stop r) :
    scanHex zx (s ++ r) = some (b, r) := by
  rcases h with ⟨c, d, rfl, hc, hb⟩ | ⟨c₁, d₁, c₂, d₂, rfl, h1, h2, hb⟩
  · obtain ⟨f1, f2, f3, -, -, -, -, f8⟩ := hexDigit_facts hc
    have hx : ¬ (c = ch '0' ∧ (r.head? = some (ch 'x') ∨ r.head? = some (ch 'X'))) := by
      rintro ⟨-, h⟩
      rcases hr with rfl | ⟨e, t, rfl, -, he1, he2⟩
      · simp at h
      · simp at h
        exact h.elim he1 he2
    simp only [List.cons_append, List.nil_append, scanHex, List.dropWhile_cons, f1, Bool.false_eq_true, if_false, if_neg f2,
      if_neg f3, if_neg hx, scanNumber, fromHexChar_of hc, scanDigits, scanDigits_stop hr, Option.map_some]
    congr 1
    rw [Prod.mk.injEq]
    refine ⟨?_, rfl⟩
    apply UInt8.toNat_inj.1
    rw [UInt8.toNat_ofNat', hb]
    omega
  · obtain ⟨f1, f2, f3, -, -, -, -, f8⟩ := hexDigit_facts h1
    obtain ⟨g1, g2, g3, g4, g5, -, -, g8⟩ := hexDigit_facts h2
    have hx : ¬ (c₁ = ch '0' ∧ ((c₂ :: r).head? = some (ch 'x') ∨ (c₂ :: r).head? = some (ch 'X'))) := by
      rintro ⟨-, h⟩
      simp at h
      exact h.elim g4 g5
    simp only [List.cons_append, List.nil_append, scanHex, List.dropWhile_cons, f1, Bool.false_eq_true, if_false, if_neg f2,
      if_neg f3, if_neg hx, scanNumber, fromHexChar_of h1, fromHexChar_of h2, scanDigits, Option.map_some]
    congr 1
    rw [Prod.mk.injEq]
    refine ⟨?_, rfl⟩
    apply UInt8.toNat_inj.1
    rw [UInt8.toNat_ofNat', hb]
    omega

theorem scanSep_sep {sep : UInt8} (h : sep = ch ':' ∨ sep = ch '-') (t : Bytes) : scanSep (sep :: t) = some (sep, t) := by
  simp only [scanSep, if_pos h]

theorem scanMac_text {s : Bytes} {a : Mac} (zx : Bool) (h : MacText s a) :
    ∃ sep, scanMac zx s = some (a, [sep, sep, sep, sep, sep], []) := by
  obtain ⟨sep, s0, s1, s2, s3, s4, s5, hsep, rfl, h0, h1, h2, h3, h4, h5⟩ := h
  have h5' := scanHex_octet zx h5 (r := []) (Or.inl rfl)
  rw [List.append_nil] at h5'
  refine ⟨sep, ?_⟩
  simp only [scanMac, scanHex_octet zx h0 (stop_sep hsep _), scanHex_octet zx h1 (stop_sep hsep _),
    scanHex_octet zx h2 (stop_sep hsep _), scanHex_octet zx h3 (stop_sep hsep _), scanHex_octet zx h4 (stop_sep hsep _),
    h5', scanSep_sep hsep, Option.bind_eq_bind, Option.bind_some]

theorem octet_no_null {s : Bytes} {b : UInt8} (h : Octet s b) : ∀ c ∈ s, c ≠ 0 := by
  rcases h with ⟨c, d, rfl, hc, -⟩ | ⟨c₁, d₁, c₂, d₂, rfl, h1, h2, -⟩
  · intro x hx
    simp at hx
    subst hx
    exact (hexDigit_facts hc).2.2.2.2.2.1
  · intro x hx
    simp at hx
    rcases hx with rfl | rfl
    · exact (hexDigit_facts h1).2.2.2.2.2.1
    · exact (hexDigit_facts h2).2.2.2.2.2.1

theorem macText_no_null {s : Bytes} {a : Mac} (h : MacText s a) : ∀ c ∈ s, c ≠ 0 := by
  obtain ⟨sep, s0, s1, s2, s3, s4, s5, hsep, rfl, h0, h1, h2, h3, h4, h5⟩ := h
  have hs : sep ≠ 0 := by rcases hsep with rfl | rfl <;> decide
  intro c hc
  simp only [List.mem_append, List.mem_cons] at hc
  rcases hc with hc | rfl | hc | rfl | hc | rfl | hc | rfl | hc | rfl | hc
  · exact octet_no_null h0 c hc
  · exact hs
  · exact octet_no_null h1 c hc
  · exact hs
  · exact octet_no_null h2 c hc
  · exact hs
  · exact octet_no_null h3 c hc
  · exact hs
  · exact octet_no_null h4 c hc
  · exact hs
  · exact octet_no_null h5 c hc

theorem takeWhile_no_null {s : Bytes} (h : ∀ c ∈ s, c ≠ 0) : s.takeWhile (· ≠ 0) = s :=
  Name.takeWhile_all _ s (fun c hc => by simpa using h c hc)

theorem fromString_text {s : Bytes} {a : Mac} (zx : Bool) (h : MacText s a) : Mac.fromString zx s = a := by
  obtain ⟨sep, hm⟩ := scanMac_text zx h
  simp only [Mac.fromString, takeWhile_no_null (macText_no_null h), hm]
  simp

theorem hex2_octet (b : UInt8) : Octet (hex2 b) b := by
  refine Or.inr ⟨_, _, _, _, rfl, Hex.toHexChar_digit _ _, Hex.toHexChar_digit _ _, ?_⟩
  have := b.toNat_lt
  omega

theorem toString_text (sep : UInt8) (a : Mac) (h : sep = ch ':' ∨ sep = ch '-') : MacText (a.toString sep) a :=
  ⟨sep, _, _, _, _, _, _, h, rfl, hex2_octet _, hex2_octet _, hex2_octet _, hex2_octet _, hex2_octet _, hex2_octet _⟩

/-! ### Texts of hexadecimal digits and colons -/

theorem scanHex_inv {zx : Bool} {s r : Bytes} {b : UInt8} (hs : ∀ c ∈ s, isHexColon c = true)
    (h : scanHex zx s = some (b, r)) : ∃ o, s = o ++ r ∧ Octet o b := by
  cases s with
  | nil => simp [scanHex] at h
  | cons c t =>
    have hc := hs c (by simp)
    have hsp : isSpace c = false := by
      rw [isHexColon_iff] at hc
      rcases hc with ⟨d, hd⟩ | rfl
      · exact (hexDigit_facts hd).1
      · decide
    have hx : ∀ e ∈ (c :: t), e ≠ ch 'x' ∧ e ≠ ch 'X' ∧ e ≠ ch '-' ∧ e ≠ ch '+' := by
      intro e he
      have := hs e he
      refine ⟨?_, ?_, ?_, ?_⟩ <;> (rintro rfl; exact absurd this (by decide))
    have h1 := (hx c (by simp)).2.2
    have hxx : ¬ (c = ch '0' ∧ (t.head? = some (ch 'x') ∨ t.head? = some (ch 'X'))) := by
      rintro ⟨-, h⟩
      cases t with
      | nil => simp at h
      | cons e t =>
        simp at h
        have := hx e (by simp)
        exact h.elim this.1 this.2.1
    simp only [scanHex, List.dropWhile_cons, hsp, Bool.false_eq_true, if_false, if_neg h1.1, if_neg h1.2, if_neg hxx,
      scanNumber] at h
    cases hd : Hex.fromHexChar c with
    | none => rw [hd] at h; simp at h
    | some d =>
      have hdd := (Hex.fromHexChar_iff c d).1 hd
      have hlt := Hex.HexDigit_lt hdd
      simp only [hd, scanDigits, Option.map_some] at h
      cases t with
      | nil =>
        simp only [scanDigits, Option.some.injEq, Prod.mk.injEq] at h
        obtain ⟨rfl, rfl⟩ := h
        exact ⟨[c], by simp, Or.inl ⟨c, d, rfl, hdd, by rw [UInt8.toNat_ofNat']; omega⟩⟩
      | cons e t =>
        simp only [scanDigits] at h
        cases he : Hex.fromHexChar e with
        | none =>
          rw [he] at h
          simp only [Option.some.injEq, Prod.mk.injEq] at h
          obtain ⟨rfl, rfl⟩ := h
          exact ⟨[c], by simp, Or.inl ⟨c, d, rfl, hdd, by rw [UInt8.toNat_ofNat']; omega⟩⟩
        | some d' =>
          have hdd' := (Hex.fromHexChar_iff e d').1 he
          have hlt' := Hex.HexDigit_lt hdd'
          rw [he] at h
          simp only [Option.some.injEq, Prod.mk.injEq] at h
          obtain ⟨rfl, rfl⟩ := h
          exact ⟨[c, e], by simp, Or.inr ⟨c, d, e, d', rfl, hdd, hdd', by rw [UInt8.toNat_ofNat']; omega⟩⟩

theorem scanSep_inv {s r : Bytes} {p : UInt8} (hs : ∀ c ∈ s, isHexColon c = true) (h : scanSep s = some (p, r)) :
    s = ch ':' :: r ∧ p = ch ':' := by
  cases s with
  | nil => simp [scanSep] at h
  | cons c t =>
    simp only [scanSep] at h
    split at h
    · rename_i hc
      simp only [Option.some.injEq, Prod.mk.injEq] at h
      obtain ⟨rfl, rfl⟩ := h
      rcases hc with rfl | rfl
      · exact ⟨rfl, rfl⟩
      · exact absurd (hs (ch '-') (by simp)) (by decide)
    · simp at h

theorem scanMac_inv {zx : Bool} {s : Bytes} {a : Mac} {ps : List UInt8} (hs : ∀ c ∈ s, isHexColon c = true)
    (h : scanMac zx s = some (a, ps, [])) : MacText s a := by
  simp only [scanMac, Option.bind_eq_bind, Option.bind_eq_some_iff, Prod.exists] at h
  obtain ⟨a0, r0, h0, p0, t0, g0, a1, r1, h1, p1, t1, g1, a2, r2, h2, p2, t2, g2, a3, r3, h3, p3, t3, g3, a4, r4, h4, p4, t4,
    g4, a5, r5, h5, he⟩ := h
  simp only [Option.some.injEq, Prod.mk.injEq] at he
  obtain ⟨rfl, -, rfl⟩ := he
  have sub : ∀ {x y : Bytes}, (∀ c ∈ x ++ y, isHexColon c = true) → ∀ c ∈ y, isHexColon c = true :=
    fun h c hc => h c (List.mem_append_right _ hc)
  have sub' : ∀ {x : UInt8} {y : Bytes}, (∀ c ∈ x :: y, isHexColon c = true) → ∀ c ∈ y, isHexColon c = true :=
    fun h c hc => h c (List.mem_cons_of_mem _ hc)
  obtain ⟨o0, rfl, e0⟩ := scanHex_inv hs h0
  have hs := sub hs
  obtain ⟨rfl, -⟩ := scanSep_inv hs g0
  have hs := sub' hs
  obtain ⟨o1, rfl, e1⟩ := scanHex_inv hs h1
  have hs := sub hs
  obtain ⟨rfl, -⟩ := scanSep_inv hs g1
  have hs := sub' hs
  obtain ⟨o2, rfl, e2⟩ := scanHex_inv hs h2
  have hs := sub hs
  obtain ⟨rfl, -⟩ := scanSep_inv hs g2
  have hs := sub' hs
  obtain ⟨o3, rfl, e3⟩ := scanHex_inv hs h3
  have hs := sub hs
  obtain ⟨rfl, -⟩ := scanSep_inv hs g3
  have hs := sub' hs
  obtain ⟨o4, rfl, e4⟩ := scanHex_inv hs h4
  have hs := sub hs
  obtain ⟨rfl, -⟩ := scanSep_inv hs g4
  have hs := sub' hs
  obtain ⟨o5, rfl, e5⟩ := scanHex_inv hs h5
  exact ⟨ch ':', o0, o1, o2, o3, o4, o5, Or.inl rfl, by simp, e0, e1, e2, e3, e4, e5⟩

theorem fromString_inv {zx : Bool} {s : Bytes} (hs : ∀ c ∈ s, isHexColon c = true)
    (hn : Mac.fromString zx s ≠ Mac.null) : MacText s (Mac.fromString zx s) := by
  have h0 : ∀ c ∈ s, c ≠ 0 := by
    rintro c hc rfl
    exact absurd (hs 0 hc) (by decide)
  simp only [Mac.fromString, takeWhile_no_null h0] at hn ⊢
  cases hm : scanMac zx s with
  | none => rw [hm] at hn; simp at hn
  | some x =>
    obtain ⟨a, ps, r⟩ := x
    rw [hm] at hn
    dsimp only at hn ⊢
    split at hn
    · simp at hn
    · rename_i hl
      have hr : r = [] ∨ s = [] := by
        cases r with
        | nil => exact Or.inl rfl
        | cons y r =>
          simp only [List.length_cons] at hl
          have : s.length = 0 := by omega
          exact Or.inr (List.eq_nil_of_length_eq_zero this)
      rw [if_neg hl]
      cases ps with
      | nil => simp at hn
      | cons p ps =>
        dsimp only at hn ⊢
        split at hn
        · rename_i hp
          rw [if_pos hp]
          rcases hr with rfl | rfl
          · exact scanMac_inv hs hm
          · simp [scanMac, scanHex] at hm
        · simp at hn

end Ndn.Net
