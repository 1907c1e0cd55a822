import Verif.Locator.Spec
/-
Lemmas on locators and on the constructors of KeyChain.
-/
namespace Ndn.Locator
open Spec

variable {N : Type}

theorem takeWhile_no (u : Text) : ':' ∉ u.takeWhile (· ≠ ':') := by
  induction u with
  | nil => simp
  | cons a u ih =>
    rw [List.takeWhile_cons]
    split
    · rename_i h
      simp only [List.mem_cons, not_or]
      refine ⟨fun e => ?_, ih⟩
      subst e; simp at h
    · simp

theorem split_at (s l : Text) (h : ':' ∉ s) : (s ++ ':' :: l).takeWhile (· ≠ ':') = s ∧ (s ++ ':' :: l).dropWhile (· ≠ ':') = ':' :: l := by
  induction s with
  | nil => simp
  | cons a s ih =>
    simp only [List.mem_cons, not_or] at h
    obtain ⟨h1, h2⟩ := ih h.2
    have ha : (decide (a ≠ ':')) = true := by simp [Ne.symm h.1]
    rw [List.cons_append, List.takeWhile_cons, List.dropWhile_cons, if_pos ha, if_pos ha, h1]
    exact ⟨rfl, h2⟩

theorem parseUri_eq (u : Text) : parseUri u = (scheme u, location u) := by
  unfold parseUri scheme location
  cases h : u.dropWhile (· ≠ ':') with
  | nil =>
    have := List.takeWhile_append_dropWhile (p := (· ≠ ':')) (l := u)
    rw [h, List.append_nil] at this
    rw [this]; rfl
  | cons a r => rfl

theorem canonical_ne (l : Loc) : canonical l ≠ [] := by simp [canonical]

theorem canonical_inj {l l' : Loc} (h : ':' ∉ l.scheme) (h' : ':' ∉ l'.scheme) (e : canonical l = canonical l') : l = l' := by
  obtain ⟨a1, a2⟩ := split_at l.scheme l.location h
  obtain ⟨b1, b2⟩ := split_at l'.scheme l'.location h'
  unfold canonical at e
  rw [e] at a1 a2
  obtain ⟨s, c⟩ := l
  obtain ⟨s', c'⟩ := l'
  have hs : s = s' := a1.symm.trans b1
  have hc : ':' :: c = ':' :: c' := a2.symm.trans b2
  injection hc with _ hc
  rw [hs, hc]

theorem parse_mem {dflt : Text} {known : List Text} {u : Text} {l : Loc} (h : parseAndCheck dflt known u = some l) :
    l.scheme ∈ known ∧ l.scheme = (if scheme u = [] then dflt else scheme u) ∧ l.location = location u := by
  unfold parseAndCheck at h
  rw [parseUri_eq] at h
  dsimp only at h
  generalize (if scheme u = [] then dflt else scheme u) = s at h ⊢
  split at h
  · rename_i hk
    cases h
    exact ⟨hk, rfl, rfl⟩
  · cases h

theorem pib_scheme {u : Text} {l : Loc} (h : parsePib u = some l) : l.scheme = pibSqlite ∨ l.scheme = pibMemory := by
  have := (parse_mem h).1
  simpa using this

theorem tpm_scheme {u : Text} {l : Loc} (h : parseTpm u = some l) : l.scheme = tpmFile ∨ l.scheme = tpmMemory := by
  have := (parse_mem h).1
  simpa using this

theorem no_colon_pib {s : Text} (h : s = pibSqlite ∨ s = pibMemory) : ':' ∉ s := by
  rcases h with rfl | rfl <;> decide

theorem no_colon_tpm {s : Text} (h : s = tpmFile ∨ s = tpmMemory) : ':' ∉ s := by
  rcases h with rfl | rfl <;> decide

/-- What linking does to the PIB. -/
theorem link_spec (b : Bool) (dt : Option Loc) (st : PibSt N) (t : Loc) (a : Bool) :
    ((link b dt st t a).1 = [st] ∧ ∀ t', (link b dt st t a).2 ≠ .tpm t') ∨
    (∃ t', (link b dt st t a).2 = .tpm t' ∧ (t' = t ∨ some t' = dt) ∧
      (((link b dt st t a).1 = [st] ∧ st.locator = canonical t') ∨
       (∃ rest, (link b dt st t a).1 = ⟨canonical t', []⟩ :: rest ∧ st.locator ≠ canonical t' ∧ ∀ s ∈ rest, s = st ∨ (s.locator = [] ∧ (s.keys = [] ∨ s.keys = st.keys))))) := by
  have fin1 : ∀ t', setTpmLocator st (canonical t') ++ [st] = [st] ∧ st.locator = canonical t' ∨
      ∃ rest, setTpmLocator st (canonical t') ++ [st] = ⟨canonical t', []⟩ :: rest ∧ st.locator ≠ canonical t' ∧ ∀ s ∈ rest, s = st ∨ (s.locator = [] ∧ (s.keys = [] ∨ s.keys = st.keys)) := by
    intro t'
    unfold setTpmLocator
    by_cases h : canonical t' = st.locator
    · rw [if_pos h]; exact .inl ⟨rfl, h.symm⟩
    · rw [if_neg h]
      refine .inr ⟨resetTrail st ++ [st], rfl, fun e => h e.symm, fun s hs => ?_⟩
      simp only [resetTrail, List.cons_append, List.nil_append, List.mem_cons, List.not_mem_nil, or_false] at hs
      rcases hs with rfl | rfl | rfl
      · exact .inr ⟨rfl, .inl rfl⟩
      · exact .inr ⟨rfl, .inr rfl⟩
      · exact .inl rfl
  have fin2 : ∀ t', st.locator ≠ canonical t' → ∃ rest, setTpmLocator ((resetTrail st ++ [st]).headD st) (canonical t') ++ (resetTrail st ++ [st]) = ⟨canonical t', []⟩ :: rest ∧
      st.locator ≠ canonical t' ∧ ∀ s ∈ rest, s = st ∨ (s.locator = [] ∧ (s.keys = [] ∨ s.keys = st.keys)) := by
    intro t' hne
    unfold setTpmLocator
    rw [if_neg (by simp [resetTrail, canonical_ne])]
    have hr : ∀ (x : PibSt N) s, s ∈ resetTrail x → s.locator = [] ∧ (s.keys = [] ∨ s.keys = x.keys) := by
      intro x s hs
      rcases List.mem_cons.mp hs with rfl | hs
      · exact ⟨rfl, .inl rfl⟩
      · rw [List.mem_singleton.mp hs]; exact ⟨rfl, .inr rfl⟩
    refine ⟨resetTrail ((resetTrail st ++ [st]).headD st) ++ (resetTrail st ++ [st]), rfl, hne, fun s hs => ?_⟩
    rcases List.mem_append.mp hs with hs | hs
    · obtain ⟨h1, h2⟩ := hr _ s hs
      have hh : ((resetTrail st ++ [st]).headD st).keys = [] := rfl
      rw [hh, or_self] at h2
      exact .inr ⟨h1, .inl h2⟩
    · rcases List.mem_append.mp hs with hs | hs
      · exact .inr (hr _ s hs)
      · exact .inl (List.mem_singleton.mp hs)
  unfold link
  cases b with
  | true =>
    simp only [if_true]
    by_cases h0 : st.locator = []
    · simp only [h0, if_true]
      refine .inr ⟨t, rfl, .inl rfl, ?_⟩
      have := fin1 t
      rw [h0] at this
      exact this
    · simp only [h0, if_false]
      cases dt with
      | none => exact .inl ⟨rfl, fun t' h => by cases h⟩
      | some d =>
        by_cases h1 : st.locator ≠ canonical d
        · simp only [if_pos h1]
          exact .inr ⟨d, rfl, .inr rfl, .inr (fin2 d h1)⟩
        · simp only [if_neg h1]
          exact .inr ⟨t, rfl, .inl rfl, fin1 t⟩
  | false =>
    simp only [Bool.false_eq_true, if_false]
    by_cases h1 : st.locator ≠ [] ∧ st.locator ≠ canonical t
    · simp only [if_pos h1]
      cases a with
      | true =>
        simp only [if_true]
        exact .inr ⟨t, rfl, .inl rfl, .inr (fin2 t h1.2)⟩
      | false => exact .inl ⟨rfl, fun t' h => by cases h⟩
    · simp only [if_neg h1]
      exact .inr ⟨t, rfl, .inl rfl, fin1 t⟩

/-- When linking throws, and what. -/
theorem link_mismatch (b : Bool) (dt : Option Loc) (st : PibSt N) (t : Loc) (a : Bool) :
    (link b dt st t a).2 = .mismatch ↔ b = false ∧ a = false ∧ st.locator ≠ [] ∧ st.locator ≠ canonical t := by
  unfold link
  cases b with
  | true =>
    simp only [if_true]
    constructor
    · intro h
      split at h
      · cases h
      · cases dt with
        | none => cases h
        | some d => dsimp only at h; split at h <;> cases h
    · rintro ⟨h, _⟩; cases h
  | false =>
    simp only [Bool.false_eq_true, if_false]
    by_cases h1 : st.locator ≠ [] ∧ st.locator ≠ canonical t
    · simp only [if_pos h1]
      cases a with
      | true => simp
      | false => simp [h1]
    · simp only [if_neg h1]
      constructor
      · intro h; cases h
      · rintro ⟨_, _, h⟩; exact absurd h h1

theorem link_tpm_other (dt : Option Loc) (st : PibSt N) (t : Loc) (a : Bool) : (link false dt st t a).2 = .mismatch ∨ (link false dt st t a).2 = .tpm t := by
  unfold link
  simp only [Bool.false_eq_true, if_false]
  split
  · cases a
    · exact .inl rfl
    · exact .inr rfl
  · exact .inr rfl

theorem link_error (b : Bool) (dt : Option Loc) (st : PibSt N) (t : Loc) (a : Bool) (h : (link b dt st t a).2 = .error) : b = true ∧ dt = none := by
  cases b with
  | false => rcases link_tpm_other dt st t a with h' | h' <;> rw [h] at h' <;> cases h'
  | true =>
    cases dt with
    | none => exact ⟨rfl, rfl⟩
    | some d =>
      unfold link at h
      simp only [if_true] at h
      split at h
      · cases h
      · split at h <;> cases h

theorem link_supplied (b : Bool) (dt : Option Loc) (st : PibSt N) (t t' : Loc) (a : Bool) (h : (link b dt st t a).2 = .tpm t')
    (hb : b = false ∨ st.locator = [] ∨ ∃ d, dt = some d ∧ st.locator = canonical d) : t' = t := by
  cases b with
  | false =>
    rcases link_tpm_other dt st t a with h' | h' <;> rw [h] at h' <;> cases h'
    rfl
  | true =>
    unfold link at h
    simp only [if_true] at h
    rcases hb with hb | hb | ⟨d, rfl, hd⟩
    · cases hb
    · rw [if_pos hb] at h; cases h; rfl
    · rw [if_neg (by rw [hd]; exact canonical_ne d)] at h
      dsimp only at h
      rw [if_neg (by rw [hd]; simp)] at h
      cases h; rfl

theorem link_kept (dt : Option Loc) (st : PibSt N) (t : Loc) (h0 : st.locator = [] → st.keys = []) (s : PibSt N) (hs : s ∈ (link false dt st t false).1) :
    s.keys = st.keys := by
  rcases link_spec false dt st t false with ⟨h, _⟩ | ⟨t', h1, _, ⟨h, _⟩ | ⟨rest, h, h2, h3⟩⟩
  · rw [h] at hs; rw [List.mem_singleton.mp hs]
  · rw [h] at hs; rw [List.mem_singleton.mp hs]
  · have ht := link_supplied false dt st t t' false h1 (.inl rfl)
    subst ht
    have hnm : (link false dt st t' false).2 ≠ .mismatch := by rw [h1]; simp
    have hl : st.locator = [] := Classical.byContradiction fun hne => hnm ((link_mismatch _ _ _ _ _).mpr ⟨rfl, rfl, hne, h2⟩)
    rw [h] at hs
    rcases List.mem_cons.mp hs with rfl | hs
    · exact (h0 hl).symm
    · rcases h3 s hs with rfl | ⟨_, h4 | h4⟩
      · rfl
      · rw [h4, h0 hl]
      · exact h4

theorem putPib_rest (w : World N) (r : PibRef N) (st : PibSt N) :
    (putPib w r st).1.dir = w.dir ∧ (putPib w r st).1.defPib = w.defPib ∧ (putPib w r st).1.defTpm = w.defTpm := by
  cases r <;> exact ⟨rfl, rfl, rfl⟩

theorem putPib_same (w : World N) (q : Text) (st : PibSt N) : (putPib w (.db q) st).1.db q = st := by simp [putPib]

theorem putPib_other (w : World N) (r : PibRef N) (st : PibSt N) (q : Text) (h : r ≠ .db q) : (putPib w r st).1.db q = w.db q := by
  cases r with
  | db p =>
    have : q ≠ p := fun e => h (by rw [e])
    simp [putPib, this]
  | mem s => rfl

theorem putPib_state (w : World N) (r : PibRef N) (st : PibSt N) : pibState (putPib w r st).1 (putPib w r st).2 = st := by
  cases r <;> simp [putPib, pibState]

theorem putPib_id (w : World N) (r : PibRef N) (q : Text) : (putPib w r (pibState w r)).1.db q = w.db q := by
  cases r with
  | db p =>
    by_cases h : q = p
    · subst h; rw [putPib_same]; rfl
    · exact putPib_other _ _ _ _ (fun e => h (by injection e with e; exact e.symm))
  | mem s => rfl

/-- How a KeyChain comes to be: the states and the result in terms of those of linking. -/
theorem make_cases (S : Sys) (h : Host) (w : World N) (how : How) :
    (∃ w1, (make S h w how).1 = [w1] ∧ (make S h w how).2 = .error ∧ w1.db = w.db ∧ w1.dir = w.dir ∧
      (w1.defTpm = w.defTpm ∨ w1.defTpm = defaultTpm h w.defTpm) ∧
      (w1.defPib = w.defPib ∨ w1.defPib = defaultPib h w.defPib) ∧
      (∀ pt tt a, how = .given pt tt a → parsePib pt = none ∨ parseTpm tt = none ∨ defaultPib h w.defPib = none)) ∨
    (∃ p t a dp dt w1, ((how = .dflt ∧ defaultPib h w.defPib = some p ∧ defaultTpm h w.defTpm = some t ∧ a = true) ∨
        (∃ pt tt, how = .given pt tt a ∧ parsePib pt = some p ∧ parseTpm tt = some t)) ∧
      defaultPib h w.defPib = some dp ∧ dt = defaultTpm h w.defTpm ∧ w1.db = w.db ∧ w1.dir = w.dir ∧
      (w1.defTpm = w.defTpm ∨ w1.defTpm = dt) ∧ w1.defPib = some dp ∧
      (make S h w how).1 = (link (decide (p = dp)) dt (pibState w (pibOf S p)) t a).1.map (fun st => (putPib w1 (pibOf S p) st).1) ∧
      (make S h w how).2 = result S (putPib w1 (pibOf S p) ((link (decide (p = dp)) dt (pibState w (pibOf S p)) t a).1.headD (pibState w (pibOf S p)))).2
        (link (decide (p = dp)) dt (pibState w (pibOf S p)) t a).2) := by
  have state_eq : ∀ (w' : World N) r, w'.db = w.db → pibState w' r = pibState w r := by
    intro w' r hw
    cases r with
    | db q => simp only [pibState, hw]
    | mem s => rfl
  cases how with
  | dflt =>
    cases hp : defaultPib h w.defPib with
    | none =>
      refine .inl ⟨w, ?_, ?_, rfl, rfl, .inl rfl, .inl rfl, (by intro pt tt a e; cases e)⟩ <;> simp only [make, arguments, hp]
    | some p =>
      cases ht : defaultTpm h w.defTpm with
      | none =>
        refine .inl ⟨{ w with defPib := some p }, ?_, ?_, rfl, rfl, .inl rfl, .inr rfl, (by intro pt tt a e; cases e)⟩ <;> simp only [make, arguments, hp, ht]
      | some t =>
        have hd1 : defaultPib h (some p) = some p := rfl
        have hd2 : defaultTpm h (some t) = some t := rfl
        refine .inr ⟨p, t, true, p, some t, (if p = p ∧ (pibState w (pibOf S p)).locator ≠ [] ∧ some t ≠ none then { w with defPib := some p, defTpm := some t } else { w with defPib := some p, defTpm := some t }), .inl ⟨rfl, rfl, rfl, rfl⟩, rfl, rfl, ?_, ?_, ?_, ?_, ?_, ?_⟩
        case refine_5 =>
          simp only [make, arguments, hp, ht, hd1, hd2]
          rw [state_eq _ _ (by rfl)]
        case refine_6 =>
          simp only [make, arguments, hp, ht, hd1, hd2]
          rw [state_eq _ _ (by rfl)]
        all_goals (split <;> simp)
  | given pt tt a =>
    cases hpp : parsePib pt with
    | none =>
      refine .inl ⟨w, ?_, ?_, rfl, rfl, .inl rfl, .inl rfl, (by intro pt tt a e; cases e; exact .inl hpp)⟩ <;> simp only [make, arguments, hpp]
    | some p =>
      cases htt : parseTpm tt with
      | none =>
        refine .inl ⟨w, ?_, ?_, rfl, rfl, .inl rfl, .inl rfl, (by intro pt tt a e; cases e; exact .inr (.inl htt))⟩ <;> simp only [make, arguments, hpp, htt]
      | some t =>
        cases hp : defaultPib h w.defPib with
        | none =>
          refine .inl ⟨w, ?_, ?_, rfl, rfl, .inl rfl, .inl rfl, (by intro pt tt a e; cases e; exact .inr (.inr rfl))⟩ <;> simp only [make, arguments, hpp, htt, hp]
        | some dp =>
          refine .inr ⟨p, t, a, dp, defaultTpm h w.defTpm, (if p = dp ∧ (pibState w (pibOf S p)).locator ≠ [] ∧ defaultTpm h w.defTpm ≠ none then { w with defPib := some dp, defTpm := defaultTpm h w.defTpm } else { w with defPib := some dp }), .inr ⟨pt, tt, rfl, hpp, htt⟩, rfl, rfl, ?_, ?_, ?_, ?_, ?_, ?_⟩
          case refine_5 =>
            simp only [make, arguments, hpp, htt, hp]
            rw [state_eq _ _ (by rfl)]
          case refine_6 =>
            simp only [make, arguments, hpp, htt, hp]
            rw [state_eq _ _ (by rfl)]
          all_goals (split <;> simp)

end Ndn.Locator
