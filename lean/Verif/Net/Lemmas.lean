import Verif.Net.Spec
import Verif.Hex.Lemmas
import Verif.Name.UriProps
namespace Ndn.Net
open Ndn.Net.Spec

/-! ### Lists -/

theorem first_split {x : UInt8} {a a' b b' : Bytes} (h : a ++ x :: b = a' ++ x :: b') (ha : x ∉ a) (ha' : x ∉ a') :
    a = a' ∧ b = b' := by
  induction a generalizing a' with
  | nil =>
    cases a' with
    | nil => simpa using h
    | cons c a' => simp at h; exact absurd (by simp [h.1]) ha'
  | cons c a ih =>
    cases a' with
    | nil => simp at h; exact absurd (by simp [h.1]) ha
    | cons d a' =>
      simp only [List.cons_append, List.cons.injEq] at h
      obtain ⟨rfl, h⟩ := h
      obtain ⟨rfl, rfl⟩ := ih h (by simp at ha; exact ha.2) (by simp at ha'; exact ha'.2)
      exact ⟨rfl, rfl⟩

theorem last_split {x : UInt8} {a a' b b' : Bytes} (h : a ++ x :: b = a' ++ x :: b') (hb : x ∉ b) (hb' : x ∉ b') :
    a = a' ∧ b = b' := by
  have h' := congrArg List.reverse h
  simp only [List.reverse_append, List.reverse_cons, List.append_assoc, List.singleton_append] at h'
  obtain ⟨h1, h2⟩ := first_split h' (by simpa using hb) (by simpa using hb')
  exact ⟨List.reverse_inj.1 h2, List.reverse_inj.1 h1⟩

theorem tail_split {x : UInt8} {a a' b b' : Bytes} (h : a ++ b = a' ++ b') (ha : x ∉ a) (ha' : x ∉ a')
    (hb : b = [] ∨ b.head? = some x) (hb' : b' = [] ∨ b'.head? = some x) : a = a' ∧ b = b' := by
  have key : ∀ {p q r s : Bytes}, p ++ q = r ++ s → q = [] → x ∉ p → (s = [] ∨ s.head? = some x) → p = r ∧ q = s := by
    intro p q r s h hq hp hs
    subst hq
    rcases hs with rfl | hs
    · simpa using h
    · obtain ⟨t, rfl⟩ : ∃ t, s = x :: t := by
        cases s with
        | nil => simp at hs
        | cons y t => simp at hs; exact ⟨t, by rw [hs]⟩
      simp at h
      exact absurd (by simp [h]) hp
  rcases hb with rfl | hb
  · exact key h rfl ha hb'
  · rcases hb' with rfl | hb'
    · obtain ⟨h1, h2⟩ := key h.symm rfl ha' (Or.inr hb)
      exact ⟨h1.symm, h2.symm⟩
    · obtain ⟨t, rfl⟩ : ∃ t, b = x :: t := by
        cases b with
        | nil => simp at hb
        | cons y t => simp at hb; exact ⟨t, by rw [hb]⟩
      obtain ⟨t', rfl⟩ : ∃ t, b' = x :: t := by
        cases b' with
        | nil => simp at hb'
        | cons y t => simp at hb'; exact ⟨t, by rw [hb']⟩
      obtain ⟨h1, h2⟩ := first_split h ha ha'
      exact ⟨h1, by rw [h2]⟩

/-! ### Characters -/

theorem isDig_iff (c : UInt8) : isDig c = true ↔ Digit c := by simp [isDig, Digit]

theorem isHex_iff (c : UInt8) : isHex c = true ↔ HexChar c := by
  simp only [isHex, HexChar, Hex.Spec.HexDigit, Bool.or_eq_true, Bool.and_eq_true, decide_eq_true_eq]
  constructor
  · intro h
    rcases h with (h | h) | h
    · exact ⟨c.toNat - 97 + 10, by omega⟩
    · exact ⟨c.toNat - 65 + 10, by omega⟩
    · exact ⟨c.toNat - 48, by omega⟩
  · rintro ⟨d, h⟩
    omega

theorem isWord_iff (c : UInt8) : isWord c = true ↔ Word c := by
  simp only [isWord, Word, Digit, Bool.or_eq_true, Bool.and_eq_true, decide_eq_true_eq]
  have : ch '_' = (95 : UInt8) := by decide
  rw [this]
  constructor
  · rintro (((h | h) | h) | h)
    · exact Or.inl h
    · exact Or.inr (Or.inl h)
    · exact Or.inr (Or.inr (Or.inr h))
    · exact Or.inr (Or.inr (Or.inl h))
  · rintro (h | h | h | h)
    · exact Or.inl (Or.inl (Or.inl h))
    · exact Or.inl (Or.inl (Or.inr h))
    · exact Or.inr h
    · exact Or.inl (Or.inr h)

theorem isSpace_iff (c : UInt8) : isSpace c = true ↔ White c := by simp [isSpace, White]

theorem isHexColon_iff (c : UInt8) : isHexColon c = true ↔ (HexChar c ∨ c = ch ':') := by
  simp [isHexColon, isHex_iff]

theorem isZone_iff (c : UInt8) : isZone c = true ↔ (¬ White c ∧ c ≠ ch '/' ∧ c ≠ ch ':') := by
  have h := isSpace_iff c
  simp only [isZone, Bool.not_eq_true', Bool.or_eq_false_iff, decide_eq_false_iff_not, ne_eq, and_assoc]
  rw [← h]
  simp

theorem notSlash_iff (c : UInt8) : notSlash c = true ↔ c ≠ ch '/' := by simp [notSlash]
theorem notQuery_iff (c : UInt8) : notQuery c = true ↔ c ≠ ch '?' := by simp [notQuery]
theorem notColon_iff (c : UInt8) : notColon c = true ↔ c ≠ ch ':' := by simp [notColon]

/-! ### The regular expressions -/

theorem plus_M (p : UInt8 → Bool) (s : Bytes) (m m' : Caps) :
    (Re.plus p).M s m m' ↔ s ≠ [] ∧ (∀ c ∈ s, p c = true) ∧ m' = m := by
  constructor
  · rintro ⟨s₁, s₂, m₁, rfl, ⟨c, rfl, hc, rfl⟩, h2, rfl⟩
    exact ⟨by simp, (by simpa [hc] using h2), rfl⟩
  · rintro ⟨h1, h2, rfl⟩
    cases s with
    | nil => exact absurd rfl h1
    | cons c s =>
      exact ⟨[c], s, m', rfl, ⟨c, rfl, h2 c (by simp), rfl⟩, (fun d hd => h2 d (by simp [hd])), rfl⟩

theorem lit_M (t s : Bytes) (m m' : Caps) : (Re.lit t).M s m m' ↔ s = t ∧ m' = m := by
  induction t generalizing s with
  | nil => exact Iff.rfl
  | cons c t ih =>
    constructor
    · rintro ⟨s₁, s₂, m₁, rfl, ⟨d, rfl, hd, rfl⟩, h⟩
      obtain ⟨rfl, rfl⟩ := (ih s₂).1 h
      simp at hd
      exact ⟨by simp [hd], rfl⟩
    · rintro ⟨rfl, rfl⟩
      exact ⟨[c], t, m', rfl, ⟨c, rfl, by simp, rfl⟩, (ih t).2 ⟨rfl, rfl⟩⟩

theorem set_same (m : Caps) (i : Nat) (s : Bytes) : (m.set i s) i = s := by simp [Caps.set]
theorem set_other (m : Caps) {i j : Nat} (s : Bytes) (h : j ≠ i) : (m.set i s) j = m j := by simp [Caps.set, h]

theorem port_M (i : Nat) (s : Bytes) (m m' : Caps) (hi : m i = []) :
    (portExp i).M s m m' ↔ ∃ p, PortText s p ∧ m' = m.set i p := by
  have h0 : m.set i [] = m := by
    funext j
    by_cases h : j = i
    · subst h; simp [Caps.set, hi]
    · simp [Caps.set, h]
  constructor
  · rintro (⟨s₁, s₂, m₁, rfl, h1, m₂, h2, rfl⟩ | ⟨rfl, rfl⟩)
    · obtain ⟨rfl, rfl⟩ := (lit_M _ _ _ _).1 h1
      obtain ⟨hne, hd, rfl⟩ := (plus_M _ _ _ _).1 h2
      exact ⟨s₂, Or.inr ⟨rfl, hne, fun c hc => (isDig_iff c).1 (hd c hc)⟩, rfl⟩
    · exact ⟨[], Or.inl ⟨rfl, rfl⟩, h0.symm⟩
  · rintro ⟨p, ⟨rfl, rfl⟩ | ⟨rfl, hne, hd⟩, rfl⟩
    · exact Or.inr ⟨rfl, h0⟩
    · exact Or.inl ⟨[ch ':'], p, m, rfl, (lit_M _ _ _ _).2 ⟨rfl, rfl⟩, m,
        (plus_M _ _ _ _).2 ⟨hne, (fun c hc => (isDig_iff c).2 (hd c hc)), rfl⟩, rfl⟩

theorem portText_no {x : UInt8} {t p : Bytes} (h : PortText t p) (hx : x ≠ ch ':') (hd : ¬ Digit x) : x ∉ t := by
  rcases h with ⟨rfl, rfl⟩ | ⟨rfl, -, h⟩
  · simp
  · intro hm
    simp only [List.mem_cons] at hm
    rcases hm with hm | hm
    · exact hx hm
    · exact hd (h x hm)

theorem portText_fun {t p q : Bytes} (h : PortText t p) (h' : PortText t q) : p = q := by
  rcases h with ⟨rfl, rfl⟩ | ⟨rfl, h⟩ <;> rcases h' with ⟨h1, rfl⟩ | ⟨h1, h2⟩
  · rfl
  · simp at h1
  · simp at h1
  · simpa using h1

/-- The whole protocol pattern. -/
theorem protocol_M (s : Bytes) (m' : Caps) : protocolExp.M s (fun _ => []) m' →
    ∃ scheme auth path, s = scheme ++ schemeEnd ++ auth ++ path ∧ Scheme scheme ∧ (∀ c ∈ auth, c ≠ ch '/') ∧
      (path = [] ∨ (path.head? = some (ch '/') ∧ ∀ c ∈ path, c ≠ ch '?')) ∧
      m' 1 = scheme ∧ m' 3 = auth ∧ m' 4 = path := by
  rintro ⟨s₁, r₁, m₁, rfl, ⟨m₂, ⟨w, r₂, m₃, rfl, hw, d, o, m₄, rfl, hd, ho⟩, rfl⟩, c, r₃, m₅, rfl, hc, a, p, m₆, rfl,
    ⟨m₇, ha, rfl⟩, hp⟩
  obtain ⟨hw1, hw2, rfl⟩ := (plus_M _ _ _ _).1 hw
  obtain ⟨rfl, rfl⟩ := (lit_M _ _ _ _).1 hc
  obtain ⟨ha, rfl⟩ := ha
  have hd' : (∀ c ∈ d, Word c) ∧ m₄ = fun _ => [] := by
    rcases hd with ⟨c, rfl, hc, rfl⟩ | ⟨rfl, rfl⟩
    · refine ⟨?_, rfl⟩
      intro x hx
      simp at hx
      subst hx
      exact Or.inl ((isDig_iff x).1 hc)
    · exact ⟨by simp, rfl⟩
  obtain ⟨hd1, rfl⟩ := hd'
  have hwd : Some1 Word (w ++ d) := ⟨by simp [hw1], by
    intro x hx
    rcases List.mem_append.1 hx with hx | hx
    · exact (isWord_iff x).1 (hw2 x hx)
    · exact hd1 x hx⟩
  have hscheme : Scheme (w ++ (d ++ o)) := by
    rcases ho with ⟨m₈, ⟨l, v, m₉, rfl, hl, hv⟩, -⟩ | ⟨rfl, -⟩
    · obtain ⟨rfl, rfl⟩ := (lit_M _ _ _ _).1 hl
      obtain ⟨hv1, hv2, -⟩ := (plus_M _ _ _ _).1 hv
      exact Or.inr ⟨w ++ d, v, by simp, hwd, hv1, fun x hx => (isWord_iff x).1 (hv2 x hx)⟩
    · exact Or.inl (by simpa using hwd)
  have ho4 : m₂ 4 = [] := by
    rcases ho with ⟨m₈, ⟨l, v, m₉, rfl, hl, hv⟩, rfl⟩ | ⟨rfl, rfl⟩
    · obtain ⟨rfl, rfl⟩ := (lit_M _ _ _ _).1 hl
      obtain ⟨-, -, rfl⟩ := (plus_M _ _ _ _).1 hv
      rfl
    · rfl
  refine ⟨w ++ (d ++ o), a, p, (by simp [schemeEnd]), hscheme, (fun x hx => (notSlash_iff x).1 (ha x hx)), ?_, ?_⟩
  · rcases hp with ⟨m₈, ⟨l, v, m₉, rfl, hl, hv⟩, -⟩ | ⟨rfl, -⟩
    · obtain ⟨rfl, rfl⟩ := (lit_M _ _ _ _).1 hl
      obtain ⟨hv, -⟩ := hv
      refine Or.inr ⟨rfl, ?_⟩
      intro x hx
      simp only [List.cons_append, List.nil_append, List.mem_cons] at hx
      rcases hx with rfl | hx
      · decide
      · exact (notQuery_iff x).1 (hv x hx)
    · exact Or.inl rfl
  · rcases hp with ⟨m₈, ⟨l, v, m₉, rfl, hl, hv⟩, rfl⟩ | ⟨rfl, rfl⟩
    · obtain ⟨rfl, rfl⟩ := (lit_M _ _ _ _).1 hl
      obtain ⟨-, rfl⟩ := hv
      simp [Caps.set]
    · simp [Caps.set, ho4]

theorem protocol_M' {scheme auth path : Bytes} (hs : Scheme scheme) (ha : ∀ c ∈ auth, c ≠ ch '/')
    (hp : path = [] ∨ (path.head? = some (ch '/') ∧ ∀ c ∈ path, c ≠ ch '?')) :
    ∃ m', protocolExp.M (scheme ++ schemeEnd ++ auth ++ path) (fun _ => []) m' := by
  have h1 : ∃ m₁, (Re.cap 1 (.seq (Re.plus isWord) (.seq (.opt (.cls isDig))
      (.opt (.cap 2 (.seq (Re.lit [ch '+']) (Re.plus isWord))))))).M scheme (fun _ => []) m₁ := by
    rcases hs with ⟨hne, hw⟩ | ⟨a, b, rfl, ⟨hane, ha⟩, hbne, hb⟩
    · exact ⟨_, _, ⟨scheme, [], _, by simp, (plus_M _ _ _ _).2 ⟨hne, fun x hx => (isWord_iff x).2 (hw x hx), rfl⟩,
        [], [], _, rfl, Or.inr ⟨rfl, rfl⟩, Or.inr ⟨rfl, rfl⟩⟩, rfl⟩
    · exact ⟨_, _, ⟨a, ch '+' :: b, _, rfl, (plus_M _ _ _ _).2 ⟨hane, fun x hx => (isWord_iff x).2 (ha x hx), rfl⟩,
        [], ch '+' :: b, _, rfl, Or.inr ⟨rfl, rfl⟩, Or.inl ⟨_, ⟨[ch '+'], b, _, rfl, (lit_M _ _ _ _).2 ⟨rfl, rfl⟩,
          (plus_M _ _ _ _).2 ⟨hbne, fun x hx => (isWord_iff x).2 (hb x hx), rfl⟩⟩, rfl⟩⟩, rfl⟩
  obtain ⟨m₁, h1⟩ := h1
  have h4 : ∀ m, ∃ m', (Re.opt (.cap 4 (.seq (Re.lit [ch '/']) (.many notQuery)))).M path m m' := by
    intro m
    rcases hp with rfl | ⟨hp1, hp2⟩
    · exact ⟨m, Or.inr ⟨rfl, rfl⟩⟩
    · cases path with
      | nil => simp at hp1
      | cons x p =>
        simp at hp1
        subst hp1
        exact ⟨_, Or.inl ⟨_, ⟨[ch '/'], p, _, rfl, (lit_M _ _ _ _).2 ⟨rfl, rfl⟩,
          fun x hx => (notQuery_iff x).2 (hp2 x (by simp [hx])), rfl⟩, rfl⟩⟩
  obtain ⟨m', h4⟩ := h4 (m₁.set 3 auth)
  exact ⟨m', scheme, schemeEnd ++ (auth ++ path), m₁, by simp, h1, schemeEnd, auth ++ path, m₁, rfl,
    (lit_M _ _ _ _).2 ⟨rfl, rfl⟩, auth, path, m₁.set 3 auth, rfl,
    ⟨m₁, ⟨fun x hx => (notSlash_iff x).2 (ha x hx), rfl⟩, rfl⟩, h4⟩

theorem scheme_no_colon {s : Bytes} (h : Scheme s) : ch ':' ∉ s := by
  have hw : ¬ Word (ch ':') := by simp only [Word, Digit]; decide
  rcases h with ⟨-, h⟩ | ⟨a, b, rfl, ⟨-, ha⟩, -, hb⟩
  · exact fun hm => hw (h _ hm)
  · intro hm
    simp only [List.mem_append, List.mem_cons] at hm
    rcases hm with hm | hm | hm
    · exact hw (ha _ hm)
    · exact absurd hm (by decide)
    · exact hw (hb _ hm)

/-- A text splits into scheme, authority and path in one way. -/
theorem uri_unique {s s' a a' p p' : Bytes} (h : s ++ schemeEnd ++ a ++ p = s' ++ schemeEnd ++ a' ++ p')
    (hs : Scheme s) (hs' : Scheme s') (ha : ∀ c ∈ a, c ≠ ch '/') (ha' : ∀ c ∈ a', c ≠ ch '/')
    (hp : p = [] ∨ p.head? = some (ch '/')) (hp' : p' = [] ∨ p'.head? = some (ch '/')) : s = s' ∧ a = a' ∧ p = p' := by
  simp only [schemeEnd, List.append_assoc, List.cons_append, List.nil_append] at h
  obtain ⟨rfl, h2⟩ := first_split h (scheme_no_colon hs) (scheme_no_colon hs')
  rw [List.cons.injEq, List.cons.injEq] at h2
  obtain ⟨rfl, rfl⟩ := tail_split h2.2.2 (fun hm => ha _ hm rfl) (fun hm => ha' _ hm rfl) hp hp'
  exact ⟨rfl, rfl, rfl⟩

/-- A link-local authority. -/
def LLForm (s a z p : Bytes) : Prop :=
  ∃ t, s = ch '[' :: (a ++ ch '%' :: (z ++ ch ']' :: t)) ∧ Some1 (fun c => HexChar c ∨ c = ch ':') a ∧
    Some1 (fun c => ¬ White c ∧ c ≠ ch '/' ∧ c ≠ ch ':') z ∧ PortText t p

theorem ll_M (s : Bytes) (m' : Caps) :
    v6LinkLocalExp.M s (fun _ => []) m' ↔ ∃ a z p, LLForm s a z p ∧
      m' = Caps.set (Caps.set (Caps.set (fun _ => []) 1 a) 2 z) 3 p := by
  constructor
  · rintro ⟨l, r₁, m₁, rfl, hl, a, r₂, m₂, rfl, ⟨m₃, ha, rfl⟩, l', r₃, m₄, rfl, hl', z, r₄, m₅, rfl, ⟨m₆, hz, rfl⟩,
      l'', t, m₇, rfl, hl'', ht⟩
    obtain ⟨rfl, rfl⟩ := (lit_M _ _ _ _).1 hl
    obtain ⟨ha1, ha2, rfl⟩ := (plus_M _ _ _ _).1 ha
    obtain ⟨rfl, rfl⟩ := (lit_M _ _ _ _).1 hl'
    obtain ⟨hz1, hz2, rfl⟩ := (plus_M _ _ _ _).1 hz
    obtain ⟨rfl, rfl⟩ := (lit_M _ _ _ _).1 hl''
    obtain ⟨p, hp, rfl⟩ := (port_M _ _ _ _ (by simp [Caps.set])).1 ht
    exact ⟨a, z, p, ⟨t, by simp, ⟨ha1, fun x hx => (isHexColon_iff x).1 (ha2 x hx)⟩,
      ⟨hz1, fun x hx => (isZone_iff x).1 (hz2 x hx)⟩, hp⟩, rfl⟩
  · rintro ⟨a, z, p, ⟨t, rfl, ⟨ha1, ha2⟩, ⟨hz1, hz2⟩, hp⟩, rfl⟩
    exact ⟨[ch '['], _, _, rfl, (lit_M _ _ _ _).2 ⟨rfl, rfl⟩, a, _, _, rfl,
      ⟨_, (plus_M _ _ _ _).2 ⟨ha1, (fun x hx => (isHexColon_iff x).2 (ha2 x hx)), rfl⟩, rfl⟩,
      [ch '%'], _, _, rfl, (lit_M _ _ _ _).2 ⟨rfl, rfl⟩, z, _, _, rfl,
      ⟨_, (plus_M _ _ _ _).2 ⟨hz1, (fun x hx => (isZone_iff x).2 (hz2 x hx)), rfl⟩, rfl⟩,
      [ch ']'], t, _, rfl, (lit_M _ _ _ _).2 ⟨rfl, rfl⟩, (port_M _ _ _ _ (by simp [Caps.set])).2 ⟨p, hp, rfl⟩⟩

/-- An authority in brackets without a zone. -/
def V6Form (s a p : Bytes) : Prop :=
  ∃ t, s = ch '[' :: (a ++ ch ']' :: t) ∧ Some1 (fun c => HexChar c ∨ c = ch ':') a ∧ PortText t p

theorem v6_M (s : Bytes) (m' : Caps) :
    v6Exp.M s (fun _ => []) m' ↔ ∃ a p, V6Form s a p ∧ m' = Caps.set (Caps.set (fun _ => []) 1 a) 2 p := by
  constructor
  · rintro ⟨l, r₁, m₁, rfl, hl, a, r₂, m₂, rfl, ⟨m₃, ha, rfl⟩, l'', t, m₇, rfl, hl'', ht⟩
    obtain ⟨rfl, rfl⟩ := (lit_M _ _ _ _).1 hl
    obtain ⟨ha1, ha2, rfl⟩ := (plus_M _ _ _ _).1 ha
    obtain ⟨rfl, rfl⟩ := (lit_M _ _ _ _).1 hl''
    obtain ⟨p, hp, rfl⟩ := (port_M _ _ _ _ (by simp [Caps.set])).1 ht
    exact ⟨a, p, ⟨t, by simp, ⟨ha1, fun x hx => (isHexColon_iff x).1 (ha2 x hx)⟩, hp⟩, rfl⟩
  · rintro ⟨a, p, ⟨t, rfl, ⟨ha1, ha2⟩, hp⟩, rfl⟩
    exact ⟨[ch '['], _, _, rfl, (lit_M _ _ _ _).2 ⟨rfl, rfl⟩, a, _, _, rfl,
      ⟨_, (plus_M _ _ _ _).2 ⟨ha1, (fun x hx => (isHexColon_iff x).2 (ha2 x hx)), rfl⟩, rfl⟩,
      [ch ']'], t, _, rfl, (lit_M _ _ _ _).2 ⟨rfl, rfl⟩, (port_M _ _ _ _ (by simp [Caps.set])).2 ⟨p, hp, rfl⟩⟩

theorem octet_M {s : Bytes} {m m' : Caps} (h : octetExp.M s m m') :
    s ≠ [] ∧ (∀ c ∈ s, isHex c = true) ∧ m' = m := by
  obtain ⟨s₁, s₂, m₁, rfl, ⟨c, rfl, hc, rfl⟩, ⟨d, rfl, hd, rfl⟩ | ⟨rfl, rfl⟩⟩ := h
  · exact ⟨by simp, by simp [hc, hd], rfl⟩
  · exact ⟨by simp, by simp [hc], rfl⟩

/-- The Ethernet pattern is a special case of the IPv6 pattern. -/
theorem ether_v6 {s : Bytes} {m' : Caps} (h : etherExp.M s (fun _ => []) m') : ∃ a, V6Form s a [] := by
  obtain ⟨l, r₁, m₁, rfl, hl, a, r₂, m₂, rfl, ⟨m₃, ha, rfl⟩, hr⟩ := h
  obtain ⟨rfl, rfl⟩ := (lit_M _ _ _ _).1 hl
  obtain ⟨rfl, -⟩ := (lit_M _ _ _ _).1 hr
  obtain ⟨b, o, m₄, rfl, hb, ho⟩ := ha
  obtain ⟨ho1, ho2, -⟩ := octet_M ho
  have : ∀ n s m m', (Re.times n (.seq octetExp (Re.lit [ch ':']))).M s m m' → ∀ c ∈ s, isHexColon c = true := by
    intro n
    induction n with
    | zero => rintro s m m' ⟨rfl, -⟩; simp
    | succ n ih =>
      rintro s m m' ⟨s₁, s₂, m₁, rfl, ⟨s₃, s₄, m₂, rfl, h3, h4⟩, h2⟩ c hc
      obtain ⟨-, h3, -⟩ := octet_M h3
      obtain ⟨rfl, -⟩ := (lit_M _ _ _ _).1 h4
      simp only [List.mem_append, List.mem_singleton] at hc
      rcases hc with (hc | rfl) | hc
      · simp [isHexColon, h3 c hc]
      · decide
      · exact ih _ _ _ h2 c hc
  refine ⟨b ++ o, [], by simp, ⟨by simp [ho1], ?_⟩, Or.inl ⟨rfl, rfl⟩⟩
  intro c hc
  rw [← isHexColon_iff]
  rcases List.mem_append.1 hc with hc | hc
  · exact this _ _ _ _ hb c hc
  · simp [isHexColon, ho2 c hc]

/-- An IPv4-mapped authority. -/
def MapForm (s a p : Bytes) : Prop := ∃ t, s = mappedStart ++ (a ++ ch ']' :: t) ∧ DottedQuad a ∧ PortText t p

theorem map_M (s : Bytes) (m' : Caps) :
    v4MappedV6Exp.M s (fun _ => []) m' ↔ ∃ a p, MapForm s a p ∧ m' = Caps.set (Caps.set (fun _ => []) 1 a) 2 p := by
  have hdig : ∀ {s : Bytes}, (∀ c ∈ s, isDig c = true) ↔ ∀ c ∈ s, Digit c := by
    intro s
    exact ⟨fun h c hc => (isDig_iff c).1 (h c hc), fun h c hc => (isDig_iff c).2 (h c hc)⟩
  constructor
  · rintro ⟨l, r₁, m₁, rfl, hl, q, r₂, m₂, rfl, ⟨m₃, hq, rfl⟩, l'', t, m₇, rfl, hl'', ht⟩
    obtain ⟨rfl, rfl⟩ := (lit_M _ _ _ _).1 hl
    obtain ⟨rfl, rfl⟩ := (lit_M _ _ _ _).1 hl''
    obtain ⟨a, r, n₁, rfl, ha, x₁, x₂, n₂, rfl, ⟨d₁, b, n₃, rfl, hd₁, hb⟩, y₁, y₂, n₄, rfl, ⟨d₂, c, n₅, rfl, hd₂, hc⟩,
      z₁, z₂, n₆, rfl, ⟨d₃, d, n₇, rfl, hd₃, hd⟩, rfl, rfl⟩ := hq
    obtain ⟨ha1, ha2, rfl⟩ := (plus_M _ _ _ _).1 ha
    obtain ⟨rfl, rfl⟩ := (lit_M _ _ _ _).1 hd₁
    obtain ⟨rfl, rfl⟩ := (lit_M _ _ _ _).1 hd₂
    obtain ⟨rfl, rfl⟩ := (lit_M _ _ _ _).1 hd₃
    obtain ⟨hb1, hb2, rfl⟩ := (plus_M _ _ _ _).1 hb
    obtain ⟨hc1, hc2, rfl⟩ := (plus_M _ _ _ _).1 hc
    obtain ⟨hd1, hd2, rfl⟩ := (plus_M _ _ _ _).1 hd
    obtain ⟨p, hp, rfl⟩ := (port_M _ _ _ _ (by simp [Caps.set])).1 ht
    exact ⟨a ++ ch '.' :: (b ++ ch '.' :: (c ++ ch '.' :: d)), p, ⟨t, by simp [mappedStart], ⟨a, b, c, d, rfl, ⟨ha1, hdig.1 ha2⟩, ⟨hb1, hdig.1 hb2⟩, ⟨hc1, hdig.1 hc2⟩,
      ⟨hd1, hdig.1 hd2⟩⟩, hp⟩, by simp⟩
  · rintro ⟨q, p, ⟨t, rfl, ⟨a, b, c, d, rfl, ⟨ha1, ha2⟩, ⟨hb1, hb2⟩, ⟨hc1, hc2⟩, ⟨hd1, hd2⟩⟩, hp⟩, rfl⟩
    refine ⟨mappedStart, _, _, rfl, (lit_M _ _ _ _).2 ⟨rfl, rfl⟩, _, _, _, rfl, ⟨fun _ => [], ?_, rfl⟩,
      [ch ']'], t, _, rfl, (lit_M _ _ _ _).2 ⟨rfl, rfl⟩, (port_M _ _ _ _ (by simp [Caps.set])).2 ⟨p, hp, rfl⟩⟩
    exact ⟨a, _, _, rfl, (plus_M _ _ _ _).2 ⟨ha1, hdig.2 ha2, rfl⟩,
      ch '.' :: b, ch '.' :: (c ++ ch '.' :: d), _, rfl,
      ⟨[ch '.'], b, _, rfl, (lit_M _ _ _ _).2 ⟨rfl, rfl⟩, (plus_M _ _ _ _).2 ⟨hb1, hdig.2 hb2, rfl⟩⟩,
      ch '.' :: c, ch '.' :: d, _, rfl,
      ⟨[ch '.'], c, _, rfl, (lit_M _ _ _ _).2 ⟨rfl, rfl⟩, (plus_M _ _ _ _).2 ⟨hc1, hdig.2 hc2, rfl⟩⟩,
      ch '.' :: d, [], _, by simp,
      ⟨[ch '.'], d, _, rfl, (lit_M _ _ _ _).2 ⟨rfl, rfl⟩, (plus_M _ _ _ _).2 ⟨hd1, hdig.2 hd2, rfl⟩⟩, rfl, rfl⟩

/-- Any other authority. -/
def HostForm (s h p : Bytes) : Prop := ∃ t, s = h ++ t ∧ Some1 (· ≠ ch ':') h ∧ PortText t p

theorem host_M (s : Bytes) (m' : Caps) :
    v4HostExp.M s (fun _ => []) m' ↔ ∃ a p, HostForm s a p ∧ m' = Caps.set (Caps.set (fun _ => []) 1 a) 2 p := by
  constructor
  · rintro ⟨a, t, m₂, rfl, ⟨m₃, ha, rfl⟩, ht⟩
    obtain ⟨ha1, ha2, rfl⟩ := (plus_M _ _ _ _).1 ha
    obtain ⟨p, hp, rfl⟩ := (port_M _ _ _ _ (by simp [Caps.set])).1 ht
    exact ⟨a, p, ⟨t, rfl, ⟨ha1, fun x hx => (notColon_iff x).1 (ha2 x hx)⟩, hp⟩, rfl⟩
  · rintro ⟨a, p, ⟨t, rfl, ⟨ha1, ha2⟩, hp⟩, rfl⟩
    exact ⟨a, t, _, rfl, ⟨_, (plus_M _ _ _ _).2 ⟨ha1, (fun x hx => (notColon_iff x).2 (ha2 x hx)), rfl⟩, rfl⟩,
      (port_M _ _ _ _ (by simp [Caps.set])).2 ⟨p, hp, rfl⟩⟩

theorem ll_some {s : Bytes} {m : Caps} (h : v6LinkLocalExp.full s = some m) : LLForm s (m 1) (m 2) (m 3) := by
  obtain ⟨a, z, p, h1, rfl⟩ := (ll_M _ _).1 (Re.full_sound h)
  simpa [Caps.set] using h1

theorem ll_none {s : Bytes} (h : v6LinkLocalExp.full s = none) (a z p : Bytes) : ¬ LLForm s a z p :=
  fun h1 => (Re.full_none_iff _ _).1 h ⟨_, (ll_M _ _).2 ⟨a, z, p, h1, rfl⟩⟩

theorem v6_some {s : Bytes} {m : Caps} (h : v6Exp.full s = some m) : V6Form s (m 1) (m 2) := by
  obtain ⟨a, p, h1, rfl⟩ := (v6_M _ _).1 (Re.full_sound h)
  simpa [Caps.set] using h1

theorem v6_none {s : Bytes} (h : v6Exp.full s = none) (a p : Bytes) : ¬ V6Form s a p :=
  fun h1 => (Re.full_none_iff _ _).1 h ⟨_, (v6_M _ _).2 ⟨a, p, h1, rfl⟩⟩

theorem map_some {s : Bytes} {m : Caps} (h : v4MappedV6Exp.full s = some m) : MapForm s (m 1) (m 2) := by
  obtain ⟨a, p, h1, rfl⟩ := (map_M _ _).1 (Re.full_sound h)
  simpa [Caps.set] using h1

theorem map_none {s : Bytes} (h : v4MappedV6Exp.full s = none) (a p : Bytes) : ¬ MapForm s a p :=
  fun h1 => (Re.full_none_iff _ _).1 h ⟨_, (map_M _ _).2 ⟨a, p, h1, rfl⟩⟩

theorem host_some {s : Bytes} {m : Caps} (h : v4HostExp.full s = some m) : HostForm s (m 1) (m 2) := by
  obtain ⟨a, p, h1, rfl⟩ := (host_M _ _).1 (Re.full_sound h)
  simpa [Caps.set] using h1

theorem host_none {s : Bytes} (h : v4HostExp.full s = none) (a p : Bytes) : ¬ HostForm s a p :=
  fun h1 => (Re.full_none_iff _ _).1 h ⟨_, (host_M _ _).2 ⟨a, p, h1, rfl⟩⟩

theorem ether_none {s : Bytes} (h : v6Exp.full s = none) : etherExp.full s = none := by
  cases he : etherExp.full s with
  | none => rfl
  | some m =>
    obtain ⟨a, ha⟩ := ether_v6 (Re.full_sound he)
    exact absurd ha (v6_none h a [])

/-! ### Authorities -/

theorem bracket_not_digit : ¬ Digit (ch ']') := by simp only [Digit]; decide

theorem port_no_bracket {t p : Bytes} (h : PortText t p) : ch ']' ∉ t := portText_no h (by decide) bracket_not_digit

theorem hexchar_ne {c : UInt8} (h : HexChar c ∨ c = ch ':') : c ≠ ch '%' ∧ c ≠ ch ']' ∧ c ≠ ch '/' ∧ c ≠ ch '.' := by
  rw [← isHexColon_iff] at h
  refine ⟨?_, ?_, ?_, ?_⟩ <;> (rintro rfl; exact absurd h (by decide))

theorem v6host_of_ll {s a z p : Bytes} (h : LLForm s a z p) :
    ∃ t, s = ch '[' :: (a ++ ch '%' :: z) ++ ch ']' :: t ∧ V6Host (a ++ ch '%' :: z) ∧ PortText t p := by
  obtain ⟨t, rfl, ha, hz, hp⟩ := h
  exact ⟨t, by simp, Or.inr ⟨a, z, rfl, ha, hz⟩, hp⟩

/-- What the sequence of patterns decides about an authority. -/
def authority (s : Bytes) : Option (Bytes × Bytes × Bool) :=
  if s = [] then some ([], [], false)
  else match v6LinkLocalExp.full s with
    | some m => some (m 1 ++ ch '%' :: m 2, m 3, true)
    | none => match v6Exp.full s with
      | some m => some (m 1, m 2, true)
      | none => match etherExp.full s with
        | some m => some (m 1, m 2, false)
        | none => match v4MappedV6Exp.full s with
          | some m => some (m 1, m 2, false)
          | none => match v4HostExp.full s with
            | some m => some (m 1, m 2, false)
            | none => none

theorem authority_sound {s h p : Bytes} {b : Bool} (ha : authority s = some (h, p, b)) : Authority s h p b := by
  unfold authority at ha
  split at ha
  · rename_i hs
    subst hs
    injection ha with ha
    injection ha with h1 h2
    injection h2 with h2 h3
    subst h1 h2 h3
    exact .empty
  · cases hl : v6LinkLocalExp.full s with
    | some m =>
      rw [hl] at ha
      injection ha with ha
      injection ha with h1 h2
      injection h2 with h2 h3
      subst h1 h2 h3
      obtain ⟨t, hs, hv, ht⟩ := v6host_of_ll (ll_some hl)
      rw [hs]
      exact .v6 _ _ _ hv ht
    | none =>
      rw [hl] at ha
      dsimp only at ha
      cases h6 : v6Exp.full s with
      | some m =>
        rw [h6] at ha
        injection ha with ha
        injection ha with h1 h2
        injection h2 with h2 h3
        subst h1 h2 h3
        obtain ⟨t, hs, hv, ht⟩ := v6_some h6
        have := Authority.v6 _ _ _ (Or.inl hv) ht
        rw [hs]
        simpa using this
      | none =>
        rw [h6, ether_none h6] at ha
        dsimp only at ha
        cases hm : v4MappedV6Exp.full s with
        | some m =>
          rw [hm] at ha
          injection ha with ha
          injection ha with h1 h2
          injection h2 with h2 h3
          subst h1 h2 h3
          obtain ⟨t, hs, hv, ht⟩ := map_some hm
          have := Authority.mapped _ _ _ hv ht
          rw [hs]
          simpa using this
        | none =>
          rw [hm] at ha
          dsimp only at ha
          cases hh : v4HostExp.full s with
          | none => rw [hh] at ha; simp at ha
          | some m =>
            rw [hh] at ha
            injection ha with ha
            injection ha with h1 h2
            injection h2 with h2 h3
            subst h1 h2 h3
            obtain ⟨t, hs, hv, ht⟩ := host_some hh
            rw [hs]
            refine .plain _ _ _ hv ht ?_
            rintro ⟨h', hv6, he⟩
            rw [he] at hs
            rcases hv6 with hv6 | ⟨a, z, rfl, hv6, hz⟩
            · exact v6_none h6 h' (m 2) ⟨t, by rw [hs]; simp, hv6, ht⟩
            · exact ll_none hl a z (m 2) ⟨t, by rw [hs]; simp, hv6, hz, ht⟩

/-- An authority that has a form is not rejected. -/
theorem authority_complete {s h p : Bytes} {b : Bool} (h : Authority s h p b) : authority s ≠ none := by
  intro hn
  unfold authority at hn
  split at hn
  · simp at hn
  · rename_i hs
    cases hl : v6LinkLocalExp.full s with
    | some m => rw [hl] at hn; simp at hn
    | none =>
      rw [hl] at hn
      dsimp only at hn
      cases h6 : v6Exp.full s with
      | some m => rw [h6] at hn; simp at hn
      | none =>
        rw [h6, ether_none h6] at hn
        dsimp only at hn
        cases hm : v4MappedV6Exp.full s with
        | some m => rw [hm] at hn; simp at hn
        | none =>
          rw [hm] at hn
          dsimp only at hn
          cases hh : v4HostExp.full s with
          | some m => rw [hh] at hn; simp at hn
          | none =>
            cases h with
            | empty => exact hs rfl
            | v6 _ _ t hv ht =>
              rcases hv with hv | ⟨a, z, rfl, hv, hz⟩
              · exact v6_none h6 _ _ ⟨t, by simp, hv, ht⟩
              · exact ll_none hl a z _ ⟨t, by simp, hv, hz, ht⟩
            | mapped _ _ t hv ht => exact map_none hm _ _ ⟨t, by simp, hv, ht⟩
            | plain _ _ t hv ht hno => exact host_none hh _ _ ⟨t, rfl, hv, ht⟩

theorem v6host_no_close {h h' t t' p p' : Bytes} (he : h ++ ch ']' :: t = h' ++ ch ']' :: t') (ht : PortText t p)
    (ht' : PortText t' p') : h = h' ∧ t = t' :=
  last_split he (port_no_bracket ht) (port_no_bracket ht')

theorem dotted_chars {s : Bytes} (h : DottedQuad s) : s ≠ [] ∧ ∀ c ∈ s, Digit c ∨ c = ch '.' := by
  obtain ⟨a, b, c, d, rfl, ⟨ha, ha'⟩, ⟨-, hb⟩, ⟨-, hc⟩, -, hd⟩ := h
  refine ⟨by simp, ?_⟩
  intro x hx
  simp only [List.mem_append, List.mem_cons] at hx
  rcases hx with hx | hx | hx | hx | hx | hx | hx
  · exact Or.inl (ha' x hx)
  · exact Or.inr hx
  · exact Or.inl (hb x hx)
  · exact Or.inr hx
  · exact Or.inl (hc x hx)
  · exact Or.inr hx
  · exact Or.inl (hd x hx)

theorem dotted_has_dot {s : Bytes} (h : DottedQuad s) : ch '.' ∈ s := by
  obtain ⟨a, b, c, d, rfl, -⟩ := h
  simp

/-- The zone or the colons tell an address in brackets from the IPv4-mapped form. -/
theorem v6_not_mapped {h h' : Bytes} (hv : V6Host h) (hm : DottedQuad h')
    (he : ch '[' :: h = mappedStart ++ h') : False := by
  have he' : h = [ch ':', ch ':', ch 'f', ch 'f', ch 'f', ch 'f', ch ':'] ++ h' := by
    simpa [mappedStart] using he
  have hdot : ch '.' ∈ h := by rw [he']; exact List.mem_append_right _ (dotted_has_dot hm)
  rcases hv with ⟨-, hv⟩ | ⟨a, z, rfl, -, -⟩
  · exact (hexchar_ne (hv _ hdot)).2.2.2 rfl
  · have hp : ch '%' ∈ [ch ':', ch ':', ch 'f', ch 'f', ch 'f', ch 'f', ch ':'] ++ h' := by rw [← he']; simp
    rcases List.mem_append.1 hp with hp | hp
    · exact absurd hp (by decide)
    · rcases (dotted_chars hm).2 _ hp with hp | hp
      · exact absurd hp (by simp only [Digit]; decide)
      · exact absurd hp (by decide)

theorem port_head {t p : Bytes} (h : PortText t p) : t = [] ∨ t.head? = some (ch ':') := by
  rcases h with ⟨rfl, -⟩ | ⟨rfl, -⟩
  · exact Or.inl rfl
  · exact Or.inr rfl

/-- A plain host that starts like a bracketed one, with its port. -/
theorem plain_bracket {h h' t t' p p' : Bytes} (he : h ++ t = h' ++ ch ']' :: t') (hh : Some1 (· ≠ ch ':') h)
    (ht : PortText t p) (ht' : PortText t' p') : h = h' ++ [ch ']'] ∧ t = t' := by
  have hh' : ch ':' ∉ h' ++ [ch ']'] := by
    intro hm
    -- the first colon would start the port
    have hm' : ch ':' ∈ h' := by
      rcases List.mem_append.1 hm with hm | hm
      · exact hm
      · exact absurd hm (by decide)
    obtain ⟨u, v, huv, hu⟩ : ∃ u v, h' = u ++ ch ':' :: v ∧ ch ':' ∉ u := by
      clear he hm ht' hh
      induction h' with
      | nil => simp at hm'
      | cons c l ih =>
        by_cases hc : c = ch ':'
        · exact ⟨[], l, by simp [hc], by simp⟩
        · simp only [List.mem_cons] at hm'
          obtain ⟨u, v, rfl, hu⟩ := ih (hm'.resolve_left (fun e => hc e.symm))
          exact ⟨c :: u, v, rfl, fun hx => by
            rcases List.mem_cons.1 hx with e | e
            · exact hc e.symm
            · exact hu e⟩
    rw [huv] at he
    have := tail_split (x := ch ':') (a := h) (b := t) (a' := u) (b' := ch ':' :: (v ++ ch ']' :: t'))
      (by rw [he]; simp) (fun hm => hh.2 _ hm rfl) hu (port_head ht) (Or.inr rfl)
    have hb := port_no_bracket ht
    rw [this.2] at hb
    simp at hb
  exact tail_split (x := ch ':') (by rw [he]; simp) (fun hm => hh.2 _ hm rfl) hh' (port_head ht) (port_head ht')

/-- An authority has one host, one port and one notation. -/
theorem authority_unique {s h h' p p' : Bytes} {b b' : Bool} (h1 : Authority s h p b) (h2 : Authority s h' p' b') :
    h = h' ∧ p = p' ∧ b = b' := by
  have hnil : ∀ {s h p : Bytes} {b : Bool}, Authority s h p b → s = [] → h = [] ∧ p = [] ∧ b = false := by
    intro s h p b ha hs
    cases ha with
    | empty => exact ⟨rfl, rfl, rfl⟩
    | v6 _ _ t hv ht => simp at hs
    | mapped _ _ t hv ht => simp [mappedStart] at hs
    | plain _ _ t hv ht hno => simp at hs; exact absurd hs.1 hv.1
  by_cases hs : s = []
  · obtain ⟨rfl, rfl, rfl⟩ := hnil h1 hs
    obtain ⟨rfl, rfl, rfl⟩ := hnil h2 hs
    exact ⟨rfl, rfl, rfl⟩
  -- the pairs of different forms exclude each other
  have v6map : ∀ {h t p h' t' p' : Bytes}, V6Host h → PortText t p → DottedQuad h' → PortText t' p' →
      ch '[' :: h ++ ch ']' :: t = mappedStart ++ h' ++ ch ']' :: t' → False := by
    intro h t p h' t' p' hv ht hm ht' he
    obtain ⟨h3, -⟩ := last_split he (port_no_bracket ht) (port_no_bracket ht')
    exact v6_not_mapped hv hm h3
  have v6plain : ∀ {h t p h' t' p' : Bytes}, V6Host h → PortText t p → Some1 (· ≠ ch ':') h' → PortText t' p' →
      (¬ ∃ h'', V6Host h'' ∧ h' = ch '[' :: h'' ++ [ch ']']) → ch '[' :: h ++ ch ']' :: t = h' ++ t' → False := by
    intro h t p h' t' p' hv ht hh ht' hno he
    obtain ⟨h3, -⟩ := plain_bracket he.symm hh ht' ht
    exact hno ⟨h, hv, h3⟩
  have mapplain : ∀ {h t p h' t' p' : Bytes}, DottedQuad h → PortText t p → Some1 (· ≠ ch ':') h' → PortText t' p' →
      mappedStart ++ h ++ ch ']' :: t = h' ++ t' → False := by
    intro h t p h' t' p' hv ht hh ht' he
    obtain ⟨h3, -⟩ := plain_bracket he.symm hh ht' ht
    exact hh.2 (ch ':') (by rw [h3]; simp [mappedStart]) rfl
  generalize hs1 : s = s₁ at h1
  generalize hs2 : s = s₂ at h2
  have he : s₁ = s₂ := by rw [← hs1, hs2]
  cases h1 with
  | empty => exact absurd hs1 hs
  | v6 _ _ t hv ht =>
    cases h2 with
    | empty => exact absurd hs2 hs
    | v6 _ _ t' hv' ht' =>
      have he' : h ++ ch ']' :: t = h' ++ ch ']' :: t' := by simpa using he
      obtain ⟨rfl, rfl⟩ := last_split he' (port_no_bracket ht) (port_no_bracket ht')
      exact ⟨rfl, portText_fun ht ht', rfl⟩
    | mapped _ _ t' hv' ht' => exact (v6map hv ht hv' ht' he).elim
    | plain _ _ t' hv' ht' hno => exact (v6plain hv ht hv' ht' hno he).elim
  | mapped _ _ t hv ht =>
    cases h2 with
    | empty => exact absurd hs2 hs
    | v6 _ _ t' hv' ht' => exact (v6map hv' ht' hv ht he.symm).elim
    | mapped _ _ t' hv' ht' =>
      obtain ⟨h3, rfl⟩ := last_split he (port_no_bracket ht) (port_no_bracket ht')
      exact ⟨List.append_cancel_left h3, portText_fun ht ht', rfl⟩
    | plain _ _ t' hv' ht' hno => exact (mapplain hv ht hv' ht' he).elim
  | plain _ _ t hv ht hno =>
    cases h2 with
    | empty => exact absurd hs2 hs
    | v6 _ _ t' hv' ht' => exact (v6plain hv' ht' hv ht hno he.symm).elim
    | mapped _ _ t' hv' ht' => exact (mapplain hv' ht' hv ht he.symm).elim
    | plain _ _ t' hv' ht' hno' =>
      obtain ⟨rfl, rfl⟩ := tail_split he (fun hm => hv.2 _ hm rfl) (fun hm => hv'.2 _ hm rfl) (port_head ht) (port_head ht')
      exact ⟨rfl, portText_fun ht ht', rfl⟩

theorem authority_iff (s h p : Bytes) (b : Bool) : authority s = some (h, p, b) ↔ Authority s h p b := by
  refine ⟨authority_sound, fun ha => ?_⟩
  cases hn : authority s with
  | none => exact absurd hn (authority_complete ha)
  | some r =>
    obtain ⟨h', p', b'⟩ := r
    obtain ⟨rfl, rfl, rfl⟩ := authority_unique ha (authority_sound hn)
    rfl

theorem parse_eq (s : Bytes) : FaceUri.parse s = match protocolExp.full s with
    | none => (false, {})
    | some m => match authority (m 3) with
      | some (h, p, b) => (true, { scheme := m 1, path := m 4, host := h, port := p, isV6 := b })
      | none => (false, { scheme := m 1, path := m 4 }) := by
  unfold FaceUri.parse authority
  cases protocolExp.full s with
  | none => rfl
  | some m =>
    dsimp only
    split
    · rfl
    · cases v6LinkLocalExp.full (m 3) with
      | some x => rfl
      | none =>
        cases v6Exp.full (m 3) with
        | some x => rfl
        | none =>
          cases etherExp.full (m 3) with
          | some x => rfl
          | none =>
            cases v4MappedV6Exp.full (m 3) with
            | some x => rfl
            | none =>
              cases v4HostExp.full (m 3) with
              | some x => rfl
              | none => rfl

/-- Parsing succeeds exactly for the texts of the grammar, with exactly their components. -/
theorem parse_iff (s : Bytes) (f : FaceUri) : FaceUri.parse s = (true, f) ↔ UriForm s f := by
  rw [parse_eq]
  constructor
  · intro h
    cases hm : protocolExp.full s with
    | none => rw [hm] at h; simp at h
    | some m =>
      rw [hm] at h
      dsimp only at h
      obtain ⟨scheme, auth, path, hs, h1, h2, h3, h4, h5, h6⟩ := protocol_M _ _ (Re.full_sound hm)
      rw [h4, h5, h6] at h
      cases ha : authority auth with
      | none => rw [ha] at h; simp at h
      | some r =>
        obtain ⟨x, y, b⟩ := r
        rw [ha] at h
        simp only [Prod.mk.injEq, true_and] at h
        subst h
        exact ⟨auth, hs, h1, h2, h3, (authority_iff _ _ _ _).1 ha⟩
  · rintro ⟨auth, hs, h1, h2, h3, h4⟩
    cases hm : protocolExp.full s with
    | none =>
      obtain ⟨m', hm'⟩ := protocol_M' h1 h2 h3
      rw [← hs] at hm'
      exact absurd ⟨m', hm'⟩ ((Re.full_none_iff _ _).1 hm)
    | some m =>
      dsimp only
      obtain ⟨scheme, auth', path, hs', h1', h2', h3', h4', h5', h6'⟩ := protocol_M _ _ (Re.full_sound hm)
      obtain ⟨e1, e2, e3⟩ := uri_unique (hs.symm.trans hs') h1 h1' h2 h2' (h3.imp_right And.left) (h3'.imp_right And.left)
      rw [h4', h5', h6', ← e1, ← e2, ← e3, (authority_iff _ _ _ _).2 h4]

end Ndn.Net
