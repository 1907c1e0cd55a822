import Verif.Packet.Lemmas
namespace Ndn.Packet
open Tlv Block Block.Spec Name Name.Spec Spec

/-! ### MetaInfo grammar -/

theorem takeNni_iff {t mx : Nat} {es rest : List Raw} {o : Option Nat} :
    takeNni t mx es = some (o, rest) ↔
      (∃ e n, es = e :: rest ∧ e.type = t ∧ readNniValueAs mx e.value = some n ∧ o = some n) ∨
      (es = rest ∧ o = none ∧ ∀ e ∈ es.head?, e.type ≠ t) := by
  cases es with
  | nil =>
    simp only [takeNni, Option.some.injEq, Prod.mk.injEq]
    constructor
    · rintro ⟨rfl, rfl⟩; exact Or.inr ⟨rfl, rfl, by simp⟩
    · rintro (⟨e, n, h, _⟩ | ⟨rfl, rfl, _⟩)
      · simp at h
      · exact ⟨rfl, rfl⟩
  | cons e es =>
    simp only [takeNni]
    by_cases h : e.type = t
    · rw [if_pos h]
      cases hr : readNniValueAs mx e.value with
      | none =>
        simp only
        constructor
        · intro h; simp at h
        · rintro (⟨e', n, h1, _, h2, _⟩ | ⟨_, _, h1⟩)
          · simp only [List.cons.injEq] at h1; rw [← h1.1, hr] at h2; simp at h2
          · exact absurd h (h1 e (by simp))
      | some n =>
        simp only [Option.some.injEq, Prod.mk.injEq]
        constructor
        · rintro ⟨rfl, rfl⟩; exact Or.inl ⟨e, n, rfl, h, hr, rfl⟩
        · rintro (⟨e', n', h1, _, h2, h3⟩ | ⟨_, _, h1⟩)
          · simp only [List.cons.injEq] at h1
            rw [← h1.1, hr] at h2
            simp only [Option.some.injEq] at h2
            subst h2
            exact ⟨h3.symm, h1.2⟩
          · exact absurd h (h1 e (by simp))
    · rw [if_neg h]
      simp only [Option.some.injEq, Prod.mk.injEq]
      constructor
      · rintro ⟨rfl, rfl⟩
        exact Or.inr ⟨rfl, rfl, by simpa using h⟩
      · rintro (⟨e', n', h1, h2, _⟩ | ⟨h1, rfl, _⟩)
        · simp only [List.cons.injEq] at h1; rw [← h1.1] at h2; exact absurd h2 h
        · exact ⟨rfl, h1⟩

/-- The last part of the MetaInfo decoder. -/
def metaTail (m : MetaInfo) (es2 : List Raw) : Bool × MetaInfo :=
  match es2 with
  | [] => (true, { m with finalBlock := none })
  | e :: es3 =>
    if e.type = 26 then
      match blockFromValue e.value with
      | none => (false, m)
      | some r =>
        match mkComp r.type r.value with
        | none => (false, { m with finalBlock := none })
        | some c => (true, { m with finalBlock := some c, app := m.app ++ es3 })
    else (true, { m with finalBlock := none, app := m.app ++ e :: es3 })

theorem metaDecode_eq (m : MetaInfo) (b : Raw) : m.wireDecode b =
    match parseElements b.value with
    | none => (false, m)
    | some es =>
      match takeNni 24 (2 ^ 32 - 1) es with
      | none => (false, m)
      | some (ct, es1) =>
        match takeNni 25 (2 ^ 64 - 1) es1 with
        | none => (false, { m with type := ct.getD 0 })
        | some (fp, es2) => metaTail { m with type := ct.getD 0, freshness := fp.getD 0 } es2 := by
  rfl

theorem blockFromValue_iff {v : Bytes} {r : Raw} :
    blockFromValue v = some r ↔ r.wire = v ∧ TlvForm v r.type r.value := by
  unfold blockFromValue
  by_cases h : v.length = 0
  · rw [if_pos h]
    constructor
    · intro h; simp at h
    · rintro ⟨_, h2⟩; have := h2.length_ge; omega
  · rw [if_neg h, fromRange_iff]

theorem mkComp_iff {t : Nat} {v : Bytes} {c : Comp} :
    mkComp t v = some c ↔ c = ⟨t, v⟩ ∧ ValidComp c := by
  unfold mkComp
  by_cases h : ensureValid ⟨t, v⟩ = true
  · rw [if_pos h]
    rw [ensureValid_iff] at h
    simp only [Option.some.injEq]
    constructor
    · rintro rfl; exact ⟨rfl, h⟩
    · rintro ⟨rfl, _⟩; rfl
  · rw [if_neg h]
    rw [ensureValid_iff] at h
    constructor
    · intro h; simp at h
    · rintro ⟨rfl, h'⟩; exact absurd h' h

theorem metaTail_iff (m m' : MetaInfo) (es2 : List Raw) :
    metaTail m es2 = (true, m') ↔ ∃ (fb : Option Raw) (app : List Raw), es2 = fb.toList ++ app ∧
      m'.type = m.type ∧ m'.freshness = m.freshness ∧ m'.app = m.app ++ app ∧
      (∀ e ∈ fb, e.type = 26 ∧
        ∃ c : Comp, TlvForm e.value c.type c.value ∧ ValidComp c ∧ m'.finalBlock = some c) ∧
      (fb = none → m'.finalBlock = none ∧ ∀ e ∈ app.head?, e.type ≠ 26) := by
  cases es2 with
  | nil =>
    simp only [metaTail, Prod.mk.injEq, true_and]
    constructor
    · rintro rfl; exact ⟨none, [], by simp⟩
    · rintro ⟨fb, app, h1, h2, h3, h4, h5, h6⟩
      cases fb with
      | none => 
        simp only [Option.toList_none, List.nil_append] at h1
        subst h1
        have := (h6 rfl).1
        cases m'; simp_all
      | some e => simp at h1
  | cons e es =>
    simp only [metaTail]
    by_cases h26 : e.type = 26
    · rw [if_pos h26]
      cases hb : blockFromValue e.value with
      | none =>
        simp only
        constructor
        · intro h; simp at h
        · rintro ⟨fb, app, h1, _, _, _, h5, h6⟩
          cases fb with
          | none =>
            simp only [Option.toList_none, List.nil_append] at h1
            exact absurd h26 ((h6 rfl).2 e (by simp [← h1]))
          | some x =>
            simp only [Option.toList_some, List.singleton_append, List.cons.injEq] at h1
            obtain ⟨_, c, h7, _⟩ := h5 x (by simp)
            rw [← h1.1] at h7
            have : blockFromValue e.value = some ⟨c.type, e.value, c.value⟩ :=
              blockFromValue_iff.mpr ⟨rfl, h7⟩
            rw [hb] at this; simp at this
      | some r =>
        simp only
        have hb' := blockFromValue_iff.mp hb
        cases hm : mkComp r.type r.value with
        | none =>
          simp only
          constructor
          · intro h; simp at h
          · rintro ⟨fb, app, h1, _, _, _, h5, h6⟩
            cases fb with
            | none =>
              simp only [Option.toList_none, List.nil_append] at h1
              exact absurd h26 ((h6 rfl).2 e (by simp [← h1]))
            | some x =>
              simp only [Option.toList_some, List.singleton_append, List.cons.injEq] at h1
              obtain ⟨_, c, h7, h10, _⟩ := h5 x (by simp)
              rw [← h1.1] at h7
              have : blockFromValue e.value = some ⟨c.type, e.value, c.value⟩ :=
                blockFromValue_iff.mpr ⟨rfl, h7⟩
              rw [hb] at this
              simp only [Option.some.injEq] at this
              subst this
              have : mkComp c.type c.value = some c := mkComp_iff.mpr ⟨rfl, h10⟩
              rw [hm] at this; simp at this
        | some c =>
          have hm' := mkComp_iff.mp hm
          simp only [Prod.mk.injEq, true_and]
          constructor
          · rintro rfl
            refine ⟨some e, es, rfl, rfl, rfl, rfl, ?_, by simp⟩
            intro x hx
            simp at hx; subst hx
            exact ⟨h26, c, by rw [hm'.1]; exact hb'.2, hm'.2, rfl⟩
          · rintro ⟨fb, app, h1, h2, h3, h4, h5, h6⟩
            cases fb with
            | none =>
              simp only [Option.toList_none, List.nil_append] at h1
              exact absurd h26 ((h6 rfl).2 e (by simp [← h1]))
            | some x =>
              simp only [Option.toList_some, List.singleton_append, List.cons.injEq] at h1
              obtain ⟨_, c', h7, h10, h11⟩ := h5 x (by simp)
              rw [← h1.1] at h7
              have : blockFromValue e.value = some ⟨c'.type, e.value, c'.value⟩ :=
                blockFromValue_iff.mpr ⟨rfl, h7⟩
              rw [hb] at this
              simp only [Option.some.injEq] at this
              subst this
              have : mkComp c'.type c'.value = some c' := mkComp_iff.mpr ⟨rfl, h10⟩
              simp only at hm
              rw [hm] at this
              simp only [Option.some.injEq] at this
              subst this
              rcases m' with ⟨a, b, c, d⟩
              simp only at h2 h3 h4 h11
              rw [h2, h3, h4, h11, h1.2]
    · rw [if_neg h26]
      simp only [Prod.mk.injEq, true_and]
      constructor
      · rintro rfl
        exact ⟨none, e :: es, rfl, rfl, rfl, rfl, by simp, fun _ => ⟨rfl, by simpa using h26⟩⟩
      · rintro ⟨fb, app, h1, h2, h3, h4, h5, h6⟩
        cases fb with
        | none =>
          simp only [Option.toList_none, List.nil_append] at h1
          subst h1
          have := (h6 rfl).1
          cases m'; simp_all
        | some x =>
          simp only [Option.toList_some, List.singleton_append, List.cons.injEq] at h1
          have := (h5 x (by simp)).1
          rw [← h1.1] at this; exact absurd this h26

/-- Decoding a MetaInfo into a new object succeeds exactly on the grammar. -/
theorem metaDecode_iff (b : Raw) (m : MetaInfo) :
    MetaInfo.init.wireDecode b = (true, m) ↔ ∃ es, ReadsAs b.value es ∧ MetaGrammar es m := by
  rw [metaDecode_eq]
  cases hp : parseElements b.value with
  | none =>
    simp only
    constructor
    · intro h; simp at h
    · rintro ⟨es, h, _⟩
      rw [parseElements_iff.mpr h] at hp; simp at hp
  | some es =>
    simp only
    have hr := parseElements_iff.mp hp
    have uniq : ∀ es', ReadsAs b.value es' → es' = es := by
      intro es' h'
      have := parseElements_iff.mpr h'
      rw [hp] at this; simpa using this.symm
    constructor
    · intro h
      cases h1 : takeNni 24 (2 ^ 32 - 1) es with
      | none => rw [h1] at h; simp at h
      | some p =>
        obtain ⟨ct, es1⟩ := p
        rw [h1] at h
        simp only at h
        cases h2 : takeNni 25 (2 ^ 64 - 1) es1 with
        | none => rw [h2] at h; simp at h
        | some q =>
          obtain ⟨fp, es2⟩ := q
          rw [h2] at h
          simp only at h
          rw [metaTail_iff] at h
          obtain ⟨fb, app, e1, e2, e3, e4, e5, e6⟩ := h
          have eapp : m.app = app := by rw [e4]; simp [MetaInfo.init]
          subst eapp
          rw [takeNni_iff] at h1 h2
          refine ⟨es, hr, ?_⟩
          rcases h1 with ⟨x, n, a1, a2, a3, a4⟩ | ⟨a1, a2, a3⟩ <;>
            rcases h2 with ⟨y, k, b1, b2, b3, b4⟩ | ⟨b1, b2, b3⟩
          · refine ⟨some x, some y, fb, by rw [a1, b1, e1]; simp, ?_, by simp, ?_, by simp, e5, e6⟩
            · intro e he; simp at he; subst he; subst a4; exact ⟨a2, by rw [a3, e2]; rfl⟩
            · intro e he; simp at he; subst he; subst b4; exact ⟨b2, by rw [b3, e3]; rfl⟩
          · refine ⟨some x, none, fb, by rw [a1, b1, e1]; simp, ?_, by simp, by simp, ?_, e5, e6⟩
            · intro e he; simp at he; subst he; subst a4; exact ⟨a2, by rw [a3, e2]; rfl⟩
            · intro _; subst b2; exact ⟨by rw [e3]; rfl, by rw [← e1, ← b1]; exact b3⟩
          · refine ⟨none, some y, fb, by rw [a1, b1, e1]; simp, by simp, ?_, ?_, by simp, e5, e6⟩
            · intro _; subst a2; exact ⟨by rw [e2]; rfl, a3⟩
            · intro e he; simp at he; subst he; subst b4; exact ⟨b2, by rw [b3, e3]; rfl⟩
          · refine ⟨none, none, fb, by rw [a1, b1, e1]; simp, by simp, ?_, by simp, ?_, e5, e6⟩
            · intro _; subst a2; exact ⟨by rw [e2]; rfl, a3⟩
            · intro _; subst b2; exact ⟨by rw [e3]; rfl, by rw [← e1, ← b1]; exact b3⟩
    · rintro ⟨es', hr', ct, fp, fb, g1, g2, g3, g4, g5, g6, g7⟩
      have := uniq es' hr'; subst this
      have h1 : takeNni 24 (2 ^ 32 - 1) es' =
          some (if ct = none then none else some m.type, fp.toList ++ (fb.toList ++ m.app)) := by
        rw [takeNni_iff]
        cases ct with
        | none => exact Or.inr ⟨by rw [g1]; simp, rfl, (g3 rfl).2⟩
        | some x => exact Or.inl ⟨x, m.type, by rw [g1]; simp, (g2 x (by simp)).1, (g2 x (by simp)).2, rfl⟩
      have h2 : takeNni 25 (2 ^ 64 - 1) (fp.toList ++ (fb.toList ++ m.app)) =
          some (if fp = none then none else some m.freshness, fb.toList ++ m.app) := by
        rw [takeNni_iff]
        cases fp with
        | none => exact Or.inr ⟨rfl, rfl, by simpa using (g5 rfl).2⟩
        | some x =>
          exact Or.inl ⟨x, m.freshness, by simp, (g4 x (by simp)).1, (g4 x (by simp)).2, rfl⟩
      rw [h1]
      simp only
      rw [h2]
      simp only
      rw [metaTail_iff]
      refine ⟨fb, m.app, rfl, ?_, ?_, by simp [MetaInfo.init], g6, g7⟩
      · cases ct with
        | none => simp [(g3 rfl).1]
        | some x => simp
      · cases fp with
        | none => simp [(g5 rfl).1]
        | some x => simp

/-! ### The Data loop -/

def knownD (e : Raw) : Bool := e.type = 20 ∨ e.type = 21 ∨ e.type = 22 ∨ e.type = 23

theorem knownD_iff (e : Raw) : knownD e = true ↔ (e.type = 20 ∨ e.type = 21 ∨ e.type = 22 ∨ e.type = 23) := by
  simp [knownD]

theorem dataLoop_unknown {e : Raw} (h : knownD e = false) (f : DFields) (last : Nat) (es : List Raw) :
    dataLoop f last (e :: es) = if isCriticalType e.type then (false, f) else dataLoop f last es := by
  have hk : ¬ (e.type = 20 ∨ e.type = 21 ∨ e.type = 22 ∨ e.type = 23) := by
    rw [← knownD_iff, h]; simp
  conv => lhs; unfold dataLoop
  rw [if_neg (by omega), if_neg (by omega), if_neg (by omega), if_neg (by omega)]

/-- Acceptance: unrecognised elements must be ignorable and then do not matter. -/
theorem dataLoop_filter (es : List Raw) (f f' : DFields) (last : Nat) :
    dataLoop f last es = (true, f') ↔
      (∀ e ∈ es, knownD e = false → Ignorable e) ∧ dataLoop f last (es.filter knownD) = (true, f') := by
  induction es generalizing f last with
  | nil => simp [dataLoop]
  | cons e es ih =>
    by_cases hk : knownD e = true
    · rw [List.filter_cons_of_pos hk]
      have key : ∀ (g : DFields) (l : Nat), (dataLoop g l es = (true, f') ↔
          (∀ x ∈ e :: es, knownD x = false → Ignorable x) ∧ dataLoop g l (es.filter knownD) = (true, f')) := by
        intro g l
        rw [ih]
        simp [hk]
      have kt : ((∀ x ∈ e :: es, knownD x = false → Ignorable x) ∧ (false, (f : DFields)) = (true, f')) ↔ False := by
        simp
      have kf : ((false, (f : DFields)) = (true, f')) ↔ False := by simp
      unfold dataLoop
      by_cases h20 : e.type = 20
      · simp only [if_pos h20]
        by_cases hl : last ≥ 2
        · simp [if_pos hl]
        · simp only [if_neg hl]
          by_cases hd : (f.minfo.wireDecode e).1 = true
          · simp only [if_pos hd]; exact key _ _
          · simp [if_neg hd]
      · simp only [if_neg h20]
        by_cases h21 : e.type = 21
        · simp only [if_pos h21]
          by_cases hl : last ≥ 3
          · simp [if_pos hl]
          · simp only [if_neg hl]; exact key _ _
        · simp only [if_neg h21]
          by_cases h22 : e.type = 22
          · simp only [if_pos h22]
            by_cases hl : last ≥ 4
            · simp [if_pos hl]
            · simp only [if_neg hl]
              by_cases hd : (SigInfo.wireDecode e 22).1 = true
              · simp only [if_pos hd]; exact key _ _
              · simp [if_neg hd]
          · simp only [if_neg h22]
            by_cases h23 : e.type = 23
            · simp only [if_pos h23]
              by_cases hl : last ≥ 5
              · simp [if_pos hl]
              · simp only [if_neg hl]; exact key _ _
            · rw [knownD_iff] at hk; omega
    · have hk' : knownD e = false := by simpa using hk
      rw [List.filter_cons_of_neg hk, dataLoop_unknown hk']
      by_cases hc : isCriticalType e.type = true
      · rw [if_pos hc]
        rw [isCritical_iff] at hc
        constructor
        · intro h; simp at h
        · rintro ⟨h, _⟩; exact absurd (h e (by simp) hk') hc
      · rw [if_neg hc, ih]
        rw [isCritical_iff] at hc
        have hi : Ignorable e := by unfold Ignorable; omega
        simp [hk', hi]

theorem known_cases {e : Raw} (h : knownD e = true) :
    e.type = 20 ∨ e.type = 21 ∨ e.type = 22 ∨ e.type = 23 := (knownD_iff e).mp h

theorem dataLoop20 {e : Raw} (h : e.type = 20) (f : DFields) (last : Nat) (es : List Raw) (hl : last < 2) :
    dataLoop f last (e :: es) =
      if (f.minfo.wireDecode e).1 = true then dataLoop { f with minfo := (f.minfo.wireDecode e).2 } 2 es
      else (false, { f with minfo := (f.minfo.wireDecode e).2 }) := by
  conv => lhs; unfold dataLoop
  rw [if_pos h, if_neg (by omega)]

theorem dataLoop21 {e : Raw} (h : e.type = 21) (f : DFields) (last : Nat) (es : List Raw) (hl : last < 3) :
    dataLoop f last (e :: es) = dataLoop { f with content := some e } 3 es := by
  conv => lhs; unfold dataLoop
  rw [if_neg (show ¬ e.type = 20 by omega), if_pos h, if_neg (by omega)]

theorem dataLoop22 {e : Raw} (h : e.type = 22) (f : DFields) (last : Nat) (es : List Raw) (hl : last < 4) :
    dataLoop f last (e :: es) =
      if (SigInfo.wireDecode e 22).1 = true then dataLoop { f with sigInfo := (SigInfo.wireDecode e 22).2 } 4 es
      else (false, { f with sigInfo := (SigInfo.wireDecode e 22).2 }) := by
  conv => lhs; unfold dataLoop
  rw [if_neg (show ¬ e.type = 20 by omega), if_neg (show ¬ e.type = 21 by omega), if_pos h, if_neg (by omega)]

theorem dataLoop23 {e : Raw} (h : e.type = 23) (f : DFields) (last : Nat) (es : List Raw) (hl : last < 5) :
    dataLoop f last (e :: es) = dataLoop { f with sigValue := some e } 5 es := by
  conv => lhs; unfold dataLoop
  rw [if_neg (show ¬ e.type = 20 by omega), if_neg (show ¬ e.type = 21 by omega),
    if_neg (show ¬ e.type = 22 by omega), if_pos h, if_neg (by omega)]

/-- Recognised elements below the position already reached are refused. -/
theorem dataLoop_late {e : Raw} (h : knownD e = true) (f : DFields) (last : Nat) (es : List Raw)
    (hl : e.type - 18 ≤ last) : (dataLoop f last (e :: es)).1 = false := by
  unfold dataLoop
  rcases known_cases h with h | h | h | h
  · rw [if_pos h, if_pos (by omega)]
  · rw [if_neg (show ¬ e.type = 20 by omega), if_pos h, if_pos (by omega)]
  · rw [if_neg (show ¬ e.type = 20 by omega), if_neg (show ¬ e.type = 21 by omega), if_pos h, if_pos (by omega)]
  · rw [if_neg (show ¬ e.type = 20 by omega), if_neg (show ¬ e.type = 21 by omega),
      if_neg (show ¬ e.type = 22 by omega), if_pos h, if_pos (by omega)]

theorem dataLoop_late' {e : Raw} (h : knownD e = true) {f f' : DFields} {last : Nat} {es : List Raw}
    (hl : e.type - 18 ≤ last) : ¬ dataLoop f last (e :: es) = (true, f') := by
  intro hh
  have := dataLoop_late h f last es hl
  rw [hh] at this; simp at this

theorem dataLoop_s5 {ks : List Raw} (hk : ∀ e ∈ ks, knownD e = true) (f f' : DFields) :
    dataLoop f 5 ks = (true, f') ↔ ks = [] ∧ f' = f := by
  cases ks with
  | nil => simp [dataLoop]; exact eq_comm
  | cons e es =>
    have := hk e (by simp)
    constructor
    · intro h
      exact absurd h (dataLoop_late' this (by have := known_cases this; omega))
    · intro h; simp at h

theorem dataLoop_s4 {ks : List Raw} (hk : ∀ e ∈ ks, knownD e = true) (f f' : DFields) :
    dataLoop f 4 ks = (true, f') ↔ ∃ sv : Option Raw, ks = sv.toList ∧ (∀ e ∈ sv, e.type = 23) ∧
      f' = { f with sigValue := sv.or f.sigValue } := by
  cases ks with
  | nil =>
    simp only [dataLoop, Prod.mk.injEq, true_and]
    constructor
    · rintro rfl; exact ⟨none, by simp⟩
    · rintro ⟨sv, h1, _, h3⟩
      cases sv with
      | none => rw [h3]; simp
      | some x => simp at h1
  | cons e es =>
    have hke := hk e (by simp)
    by_cases h23 : e.type = 23
    · rw [dataLoop23 h23 _ _ _ (by decide), dataLoop_s5 (fun x hx => hk x (by simp [hx]))]
      constructor
      · rintro ⟨rfl, rfl⟩; exact ⟨some e, rfl, by simpa using h23, rfl⟩
      · rintro ⟨sv, h1, _, h3⟩
        cases sv with
        | none => simp at h1
        | some x =>
          simp only [Option.toList_some, List.cons.injEq] at h1
          refine ⟨h1.2, ?_⟩
          rw [h3, h1.1]; rfl
    · constructor
      · intro h; exact absurd h (dataLoop_late' hke (by have := known_cases hke; omega))
      · rintro ⟨sv, h1, h2, _⟩
        cases sv with
        | none => simp at h1
        | some x =>
          simp only [Option.toList_some, List.cons.injEq] at h1
          rw [h1.1] at h23; exact absurd (h2 x rfl) h23

theorem dataLoop_s3 {ks : List Raw} (hk : ∀ e ∈ ks, knownD e = true) (f f' : DFields) :
    (dataLoop f 3 ks = (true, f') ∧ ∃ e ∈ ks, e.type = 22) ↔ ∃ (si : Raw) (s : SigInfo) (sv : Option Raw),
      ks = si :: sv.toList ∧ si.type = 22 ∧ SigInfo.wireDecode si 22 = (true, s) ∧ (∀ e ∈ sv, e.type = 23) ∧
      f' = { f with sigInfo := s, sigValue := sv.or f.sigValue } := by
  cases ks with
  | nil => simp
  | cons e es =>
    have hke := hk e (by simp)
    have hks : ∀ x ∈ es, knownD x = true := fun x hx => hk x (by simp [hx])
    by_cases h22 : e.type = 22
    · rw [dataLoop22 h22 _ _ _ (by decide)]
      by_cases hd : (SigInfo.wireDecode e 22).1 = true
      · rw [if_pos hd, dataLoop_s4 hks]
        constructor
        · rintro ⟨⟨sv, h1, h2, h3⟩, _⟩
          exact ⟨e, (SigInfo.wireDecode e 22).2, sv, by rw [h1], h22, by rw [← hd], h2, h3⟩
        · rintro ⟨si, s, sv, h1, h2, h3, h4, h5⟩
          simp only [List.cons.injEq] at h1
          obtain ⟨rfl, h1⟩ := h1
          exact ⟨⟨sv, h1, h4, by rw [h5, h3]⟩, e, by simp, h22⟩
      · rw [if_neg hd]
        constructor
        · rintro ⟨h, _⟩; simp at h
        · rintro ⟨si, s, sv, h1, h2, h3, _⟩
          simp only [List.cons.injEq] at h1
          rw [h1.1, h3] at hd; simp at hd
    · constructor
      · rintro ⟨h, x, hx, hx22⟩
        exfalso
        by_cases h23 : e.type = 23
        · rw [dataLoop23 h23 _ _ _ (by decide), dataLoop_s5 hks] at h
          rcases List.mem_cons.mp hx with rfl | hx
          · exact h22 hx22
          · rw [h.1] at hx; simp at hx
        · exact dataLoop_late' hke (by have := known_cases hke; omega) h
      · rintro ⟨si, s, sv, h1, h2, _⟩
        simp only [List.cons.injEq] at h1
        rw [h1.1] at h22; exact absurd h2 h22

theorem dataLoop_s2 {ks : List Raw} (hk : ∀ e ∈ ks, knownD e = true) (f f' : DFields) :
    (dataLoop f 2 ks = (true, f') ∧ ∃ e ∈ ks, e.type = 22) ↔
      ∃ (ct : Option Raw) (si : Raw) (s : SigInfo) (sv : Option Raw),
      ks = ct.toList ++ si :: sv.toList ∧ (∀ e ∈ ct, e.type = 21) ∧ si.type = 22 ∧
      SigInfo.wireDecode si 22 = (true, s) ∧ (∀ e ∈ sv, e.type = 23) ∧
      f' = { f with content := ct.or f.content, sigInfo := s, sigValue := sv.or f.sigValue } := by
  cases ks with
  | nil => simp
  | cons e es =>
    have hke := hk e (by simp)
    have hks : ∀ x ∈ es, knownD x = true := fun x hx => hk x (by simp [hx])
    by_cases h21 : e.type = 21
    · rw [dataLoop21 h21 _ _ _ (by decide)]
      have hex : (∃ x ∈ e :: es, x.type = 22) ↔ ∃ x ∈ es, x.type = 22 := by simp [h21]
      rw [hex, dataLoop_s3 hks]
      constructor
      · rintro ⟨si, s, sv, h1, h2, h3, h4, h5⟩
        exact ⟨some e, si, s, sv, by rw [h1]; rfl, by simpa using h21, h2, h3, h4, by rw [h5]; rfl⟩
      · rintro ⟨ct, si, s, sv, h1, h0, h2, h3, h4, h5⟩
        cases ct with
        | none =>
          simp only [Option.toList_none, List.nil_append, List.cons.injEq] at h1
          rw [h1.1] at h21; omega
        | some x =>
          simp only [Option.toList_some, List.singleton_append, List.cons.injEq] at h1
          exact ⟨si, s, sv, h1.2, h2, h3, h4, by rw [h5, h1.1]; rfl⟩
    · have e1 : (dataLoop f 2 (e :: es) = (true, f') ↔ dataLoop f 3 (e :: es) = (true, f')) := by
        rcases known_cases hke with h | h | h | h
        · constructor <;> intro hh <;> exact absurd hh (dataLoop_late' hke (by omega))
        · exact absurd h h21
        · rw [dataLoop22 h _ _ _ (by decide), dataLoop22 h _ _ _ (by decide)]
        · rw [dataLoop23 h _ _ _ (by decide), dataLoop23 h _ _ _ (by decide)]
      rw [e1, dataLoop_s3 hk]
      constructor
      · rintro ⟨si, s, sv, h1, h2, h3, h4, h5⟩
        exact ⟨none, si, s, sv, by rw [h1]; rfl, by simp, h2, h3, h4, by rw [h5]; rfl⟩
      · rintro ⟨ct, si, s, sv, h1, h0, h2, h3, h4, h5⟩
        cases ct with
        | none => exact ⟨si, s, sv, h1, h2, h3, h4, by rw [h5]; rfl⟩
        | some x =>
          simp only [Option.toList_some, List.singleton_append, List.cons.injEq] at h1
          rw [h1.1] at h21; exact absurd (h0 x rfl) h21

theorem dataLoop_s1 {ks : List Raw} (hk : ∀ e ∈ ks, knownD e = true) (f f' : DFields) :
    (dataLoop f 1 ks = (true, f') ∧ ∃ e ∈ ks, e.type = 22) ↔
      ∃ (mi ct : Option Raw) (m : MetaInfo) (si : Raw) (s : SigInfo) (sv : Option Raw),
      ks = mi.toList ++ (ct.toList ++ si :: sv.toList) ∧ (∀ e ∈ mi, e.type = 20) ∧
      (match mi with
        | none => m = f.minfo
        | some e => f.minfo.wireDecode e = (true, m)) ∧
      (∀ e ∈ ct, e.type = 21) ∧ si.type = 22 ∧
      SigInfo.wireDecode si 22 = (true, s) ∧ (∀ e ∈ sv, e.type = 23) ∧
      f' = ⟨f.name, m, ct.or f.content, s, sv.or f.sigValue⟩ := by
  cases ks with
  | nil => simp
  | cons e es =>
    have hke := hk e (by simp)
    have hks : ∀ x ∈ es, knownD x = true := fun x hx => hk x (by simp [hx])
    by_cases h20 : e.type = 20
    · rw [dataLoop20 h20 _ _ _ (by decide)]
      have hex : (∃ x ∈ e :: es, x.type = 22) ↔ ∃ x ∈ es, x.type = 22 := by simp [h20]
      rw [hex]
      by_cases hd : (f.minfo.wireDecode e).1 = true
      · rw [if_pos hd, dataLoop_s2 hks]
        constructor
        · rintro ⟨ct, si, s, sv, h1, h0, h2, h3, h4, h5⟩
          exact ⟨some e, ct, (f.minfo.wireDecode e).2, si, s, sv, by rw [h1]; rfl, by simpa using h20,
            by simp only; rw [← hd], h0, h2, h3, h4, by rw [h5]⟩
        · rintro ⟨mi, ct, m, si, s, sv, h1, hm, hm', h0, h2, h3, h4, h5⟩
          cases mi with
          | none =>
            exfalso
            cases ct with
            | none =>
              simp only [Option.toList_none, List.nil_append, List.cons.injEq] at h1
              rw [h1.1] at h20; omega
            | some x =>
              simp only [Option.toList_none, Option.toList_some, List.nil_append, List.singleton_append,
                List.cons.injEq] at h1
              rw [h1.1] at h20; have := h0 x rfl; omega
          | some x =>
            simp only [Option.toList_some, List.singleton_append, List.cons.injEq] at h1
            simp only at hm'
            exact ⟨ct, si, s, sv, h1.2, h0, h2, h3, h4, by rw [h5, h1.1, hm']⟩
      · rw [if_neg hd]
        constructor
        · rintro ⟨h, _⟩; simp at h
        · rintro ⟨mi, ct, m, si, s, sv, h1, hm, hm', h0, h2, h3, h4, h5⟩
          exfalso
          cases mi with
          | none =>
            cases ct with
            | none =>
              simp only [Option.toList_none, List.nil_append, List.cons.injEq] at h1
              rw [h1.1] at h20; omega
            | some x =>
              simp only [Option.toList_none, Option.toList_some, List.nil_append, List.singleton_append,
                List.cons.injEq] at h1
              rw [h1.1] at h20; have := h0 x rfl; omega
          | some x =>
            simp only [Option.toList_some, List.singleton_append, List.cons.injEq] at h1
            simp only at hm'
            rw [h1.1, hm'] at hd; simp at hd
    · have e1 : (dataLoop f 1 (e :: es) = (true, f') ↔ dataLoop f 2 (e :: es) = (true, f')) := by
        rcases known_cases hke with h | h | h | h
        · exact absurd h h20
        · rw [dataLoop21 h _ _ _ (by decide), dataLoop21 h _ _ _ (by decide)]
        · rw [dataLoop22 h _ _ _ (by decide), dataLoop22 h _ _ _ (by decide)]
        · rw [dataLoop23 h _ _ _ (by decide), dataLoop23 h _ _ _ (by decide)]
      rw [e1, dataLoop_s2 hk]
      constructor
      · rintro ⟨ct, si, s, sv, h1, h0, h2, h3, h4, h5⟩
        exact ⟨none, ct, f.minfo, si, s, sv, by rw [h1]; rfl, by simp, rfl, h0, h2, h3, h4, by rw [h5]⟩
      · rintro ⟨mi, ct, m, si, s, sv, h1, hm, hm', h0, h2, h3, h4, h5⟩
        cases mi with
        | none =>
          simp only at hm'
          exact ⟨ct, si, s, sv, h1, h0, h2, h3, h4, by rw [h5, hm']⟩
        | some x =>
          simp only [Option.toList_some, List.singleton_append, List.cons.injEq] at h1
          rw [h1.1] at h20; exact absurd (hm x rfl) h20

/-! ### The whole decoder -/

theorem blockParse_ok {v : Bytes} {es : List Raw} (h : ReadsAs v es) :
    Block.parse v [] = (.ok, es) := by
  have := parseElements_iff.mpr h
  unfold parseElements at this
  split at this
  · rename_i x hx
    simp only [Option.some.injEq] at this; subst this
    exact hx
  · simp at this

theorem dataLoop_sigInfo {es : List Raw} {f f' : DFields} {last : Nat} (hs : f.sigInfo.type = none)
    (h : dataLoop f last es = (true, f')) (h' : f'.sigInfo.type.isSome = true) : ∃ e ∈ es, e.type = 22 := by
  induction es generalizing f last with
  | nil =>
    simp only [dataLoop, Prod.mk.injEq, true_and] at h
    subst h; rw [hs] at h'; simp at h'
  | cons e es ih =>
    by_cases h22 : e.type = 22
    · exact ⟨e, by simp, h22⟩
    · have lift : (∃ x ∈ es, x.type = 22) → ∃ x ∈ e :: es, x.type = 22 := by
        rintro ⟨x, hx, h⟩; exact ⟨x, by simp [hx], h⟩
      apply lift
      unfold dataLoop at h
      simp only [if_neg h22] at h
      split at h
      · split at h
        · simp at h
        · split at h
          · exact ih (by simpa using hs) h
          · simp at h
      · split at h
        · split at h
          · simp at h
          · exact ih (by simpa using hs) h
        · split at h
          · split at h
            · simp at h
            · exact ih (by simpa using hs) h
          · split at h
            · simp at h
            · exact ih (by simpa using hs) h

/-- Decoding into any object: succeeds exactly on the grammar, and sets every field. -/
theorem DObj.wireDecode_iff (d d' : DObj) (b : Raw) :
    d.wireDecode b = (true, d') ↔
      b.type = 6 ∧ ∃ es f, ReadsAs b.value es ∧ DataGrammar es f ∧ d' = ⟨f, some b.wire, []⟩ := by
  unfold DObj.wireDecode
  by_cases ht : b.type = 6
  · rw [if_neg (by simp [ht])]
    simp only
    cases hp : parseElements b.value with
    | none =>
      simp only
      constructor
      · intro h; simp at h
      · rintro ⟨_, es, f, h, _⟩
        rw [parseElements_iff.mpr h] at hp; simp at hp
    | some es =>
      have hr := parseElements_iff.mp hp
      have uniq : ∀ es', ReadsAs b.value es' → es' = es := by
        intro es' h'
        have := parseElements_iff.mpr h'
        rw [hp] at this; simpa using this.symm
      cases es with
      | nil =>
        simp only
        constructor
        · intro h; simp at h
        · rintro ⟨_, es', f, h, ⟨n, rest, _, _, _, _, h1, _⟩, _⟩
          rw [uniq es' h] at h1; simp at h1
      | cons n rest =>
        simp only
        by_cases hn : n.type = 7
        · rw [if_neg (by simp [hn])]
          cases hpn : Block.parse n.value [] with
          | mk o cs =>
            simp only
            cases o with
            | threw =>
              simp only [if_true]
              constructor
              · intro h; simp at h
              · rintro ⟨_, es', f, h, ⟨n', rest', _, _, _, _, h1, _, ⟨cs', h2, _⟩, _⟩, _⟩
                rw [uniq es' h] at h1
                simp only [List.cons.injEq] at h1
                rw [← h1.1] at h2
                rw [blockParse_ok h2] at hpn
                simp at hpn
            | ok =>
              have hcs : ReadsAs n.value cs := by
                rw [← parseElements_iff]; unfold parseElements; rw [hpn]
              rw [if_neg (by decide)]
              have key : ∀ q2, (dataLoop ⟨rawComps cs, MetaInfo.init, none, SigInfo.init, none⟩ 1 rest = (true, q2) ∧
                  q2.sigInfo.type.isSome = true ∧ q2.sigValue.isSome = true) ↔ DataGrammar (n :: rest) q2 := by
                intro q2
                constructor
                · rintro ⟨h1, h2, h3⟩
                  have h4 := dataLoop_sigInfo rfl h1 h2
                  rw [dataLoop_filter] at h1
                  have h5 : ∃ e ∈ rest.filter knownD, e.type = 22 := by
                    obtain ⟨e, he, he'⟩ := h4
                    exact ⟨e, List.mem_filter.mpr ⟨he, by rw [knownD_iff]; omega⟩, he'⟩
                  obtain ⟨mi, ct, m, si, s, sv, g1, g2, g3, g4, g5, g6, g7, g8⟩ :=
                    (dataLoop_s1 (fun e he => (List.mem_filter.mp he).2) _ _).mp ⟨h1.2, h5⟩
                  cases sv with
                  | none => rw [g8] at h3; simp at h3
                  | some sv =>
                    refine ⟨n, rest, mi, ct, si, sv, rfl, hn, ⟨cs, hcs, by rw [g8]; rfl⟩, ?_, ?_, g2, g4, g5,
                      g7 sv rfl, ?_, by rw [g8]; simp, ?_, by rw [g8]; rfl⟩
                    · intro e he
                      by_cases hk : knownD e = true
                      · have := known_cases hk; omega
                      · have := h1.1 e he (by simpa using hk)
                        exact Or.inr (Or.inr (Or.inr (Or.inr this)))
                    · have : (fun e : Raw => decide (e.type = 20 ∨ e.type = 21 ∨ e.type = 22 ∨ e.type = 23)) = knownD := rfl
                      rw [this, g1]; simp
                    · cases mi with
                      | none => simp only at g3 ⊢; rw [g8]; exact g3
                      | some e => simp only at g3 ⊢; rw [g8]; exact (metaDecode_iff _ _).mp g3
                    · rw [g8]; exact ((sigDecode_iff _ _ _).mp g6).2
                · rintro ⟨n', rest', mi, ct, si, sv, g0, g1, ⟨cs', g2, g2'⟩, g3, g4, g5, g6, g7, g8, g9, g10, ⟨ss, g11, g12⟩, g13⟩
                  simp only [List.cons.injEq] at g0
                  obtain ⟨rfl, rfl⟩ := g0
                  have hcc : cs' = cs := by
                    have := blockParse_ok g2
                    rw [hpn] at this; simp at this; exact this.symm
                  subst hcc
                  have hsig := (sigDecode_iff si 22 q2.sigInfo).mpr ⟨g7, ss, g11, g12⟩
                  have hst : q2.sigInfo.type.isSome = true := by
                    obtain ⟨_, _, t, _, _, _, _, _, h, _⟩ := g12
                    rw [h]; rfl
                  refine ⟨?_, hst, by rw [g13]; rfl⟩
                  rw [dataLoop_filter]
                  refine ⟨?_, ?_⟩
                  · intro e he hk
                    have : ¬ (e.type = 20 ∨ e.type = 21 ∨ e.type = 22 ∨ e.type = 23) := by
                      rw [← knownD_iff, hk]; simp
                    rcases g3 e he with h | h | h | h | h
                    · omega
                    · omega
                    · omega
                    · omega
                    · exact h
                  · refine ((dataLoop_s1 (fun e he => (List.mem_filter.mp he).2) _ _).mpr
                      ⟨mi, ct, q2.minfo, si, q2.sigInfo, some sv, ?_, g5, ?_, g6, g7, hsig, by simpa using g8, ?_⟩).1
                    rotate_left
                    · cases mi with
                      | none => exact g9
                      | some e => exact (metaDecode_iff _ _).mpr g9
                    rotate_left
                    · have : (fun e : Raw => decide (e.type = 20 ∨ e.type = 21 ∨ e.type = 22 ∨ e.type = 23)) = knownD := rfl
                      rw [this] at g4
                      rw [g4]; simp
                    · rcases q2 with ⟨a, b, c, d, e⟩
                      simp only at g2' g10 g13 ⊢
                      subst g10
                      subst g13
                      simp [g2', rawComps]
              generalize hq : dataLoop ⟨rawComps cs, MetaInfo.init, none, SigInfo.init, none⟩ 1 rest = q at key
              obtain ⟨q1, q2⟩ := q
              constructor
              · intro h
                simp only at h
                by_cases hq1 : q1 = true
                · rw [if_pos hq1] at h
                  simp only [Prod.mk.injEq, Bool.and_eq_true] at h
                  exact ⟨ht, n :: rest, q2, hr, (key q2).mp ⟨by rw [hq1], h.1⟩, h.2.symm⟩
                · rw [if_neg hq1] at h; simp at h
              · rintro ⟨_, es', f, h, hg, hd'⟩
                rw [uniq es' h] at hg
                obtain ⟨a, b, c⟩ := (key f).mpr hg
                simp only [Prod.mk.injEq] at a
                obtain ⟨rfl, rfl⟩ := a
                simp [b, c, hd']
        · rw [if_pos hn]
          constructor
          · intro h; simp at h
          · rintro ⟨_, es', f, h, ⟨n', rest', _, _, _, _, h1, h2, _⟩, _⟩
            rw [uniq es' h] at h1
            simp only [List.cons.injEq] at h1
            rw [h1.1] at hn; exact absurd h2 hn
  · rw [if_pos ht]
    constructor
    · intro h; simp at h
    · rintro ⟨h, _⟩; exact absurd h ht

end Ndn.Packet
