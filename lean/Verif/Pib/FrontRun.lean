import Verif.Pib.FrontStep
namespace Ndn.Pib
open Ndn.Name Spec

namespace Sim
variable {σ : Type} {b : Backend σ} {R : σ → View → Prop} {A : View → PName → Prop} {fr : Front σ} {w : World}

/-- What is to be shown for each call. -/
def Good (R : σ → View → Prop) (b : Backend σ) (fr : Front σ) (w : World) (op : FOp) : Prop :=
  ∃ w', Step w op (fstep b fr op).1 w' ∧ Sim R (fstep b fr op).2 w'

theorem isEta : (⟨w.v, w.hs⟩ : World) = w := rfl

theorem good_addIdentity (F : Faithful b R A) (hs : Sim R fr w) (n : PName) : Good R b fr w (.addIdentity n) := by
  obtain ⟨h, fr', e, hi, hs'⟩ := hs.identAdd_ok F n
  have e0 : fstep b fr (.addIdentity n) = (.ident h, fr') := by
    simp only [fstep, Front.addIdentity, hs.identsOk F, if_true, e, Res.out]
  unfold Good
  rw [e0]
  exact ⟨_, ⟨h, rfl, hi, rfl⟩, hs'⟩

theorem good_getIdentity (F : Faithful b R A) (hs : Sim R fr w) (n : PName) : Good R b fr w (.getIdentity n) := by
  unfold Good
  by_cases hn : w.v.ident n = true
  · obtain ⟨h, fr', e, hi, hs'⟩ := hs.identGet_ok F hn
    have e0 : fstep b fr (.getIdentity n) = (.ident h, fr') := by
      simp only [fstep, Front.getIdentity, hs.identsOk F, if_true, e, Res.out]
    rw [e0]
    refine ⟨_, ?_, hs'⟩
    simp only [Step, if_pos hn]
    exact ⟨h, rfl, hi, rfl⟩
  · have e := hs.identGet_refused F (n := n) (by simpa using hn)
    have e0 : fstep b fr (.getIdentity n) = (.refused, fr) := by
      simp only [fstep, Front.getIdentity, hs.identsOk F, if_true, e, Res.out]
    rw [e0]
    refine ⟨w, ?_, hs⟩
    simp only [Step, if_neg hn]
    exact ⟨by trivial, by trivial⟩

theorem good_identities (F : Faithful b R A) (hs : Sim R fr w) : Good R b fr w .identities := by
  have e0 : fstep b fr .identities = (.names fr.names, fr) := by
    simp only [fstep, Front.identities, hs.identsOk F, if_true]
  unfold Good
  rw [e0]
  exact ⟨w, ⟨⟨_, rfl, hs.names⟩, rfl⟩, hs⟩

theorem good_setDefaultIdentity (F : Faithful b R A) (hs : Sim R fr w) (n : PName) : Good R b fr w (.setDefaultIdentity n) := by
  obtain ⟨h, fr', e, hi, hs'⟩ := hs.identAdd_ok F n
  have hn : (withIdent w.v n).ident n = true := by
    unfold withIdent
    split
    · assumption
    · simp [View.addIdent, upd]
  obtain ⟨r1, r2⟩ := F.step (op := .setDefaultIdentity n) hs'.rep trivial (fun k e => by cases e)
  simp only [next, hn, if_true] at r1 r2
  have r1' : (b.setDefaultIdentity fr'.db n).1 = .ok () := r1
  have e0 : fstep b fr (.setDefaultIdentity n) = (.ident h, { fr' with dident := some h, db := (b.setDefaultIdentity fr'.db n).2 }) := by
    simp only [fstep, Front.setDefaultIdentity, hs.identsOk F, if_true, e, r1', Res.out]
  unfold Good
  rw [e0]
  refine ⟨_, ⟨h, rfl, hi, rfl⟩, ?_⟩
  refine hs'.edit' (names' := fr'.names) r2 hs'.names (fun o ho => (hs'.idOk o ho)) 
    (fun o ho => (hs'.keyOk o ho).mono (F.rep hs'.rep).coh rfl (fun _ _ => rfl) (fun _ _ => rfl)) hs'.dkey ?_ ?_
  · intro o ho eo
    injection eo with eo
    have := hs'.idH o ho
    rw [← eo] at this
    simp [issue] at this
    rw [this]
  · intro x ex
    injection ex with ex
    subst ex
    exact hs'.lt (r := .ident n) (by simp [issue])

theorem good_getDefaultIdentity (F : Faithful b R A) (hs : Sim R fr w) : Good R b fr w .getDefaultIdentity := by
  unfold Good
  cases e : fr.dident.bind fr.ident? with
  | some o =>
    obtain ⟨x, hx, ho⟩ := Option.bind_eq_some_iff.1 e
    obtain ⟨ho2, rfl⟩ := (hs.ident?_iff x o).1 ho
    replace ho := ho2
    have hd := hs.dident o ho hx
    have e0 : fstep b fr .getDefaultIdentity = (.ident o.h, fr) := by
      simp only [fstep, Front.getDefaultIdentity, hs.identsOk F, if_true, e, ((F.rep hs.rep).defIdent o.name).2 hd]
    rw [e0]
    refine ⟨⟨w.v, issue w.hs o.h (.ident o.name)⟩, ?_, ?_⟩
    · simp only [Step, hd]
      exact ⟨o.h, rfl, hs.issuedIdent (hs.idH o ho), rfl⟩
    · rw [issue_same (hs.idH o ho)]; exact hs
  | none =>
    cases hd : w.v.defIdent with
    | none =>
      have hg : b.getDefaultIdentity fr.db = .refused := by rw [(F.rep hs.rep).ans.getDefaultIdentity, hd]
      have e0 : fstep b fr .getDefaultIdentity = (.refused, fr) := by
        simp only [fstep, Front.getDefaultIdentity, hs.identsOk F, if_true, e, hg, Res.out]
      rw [e0]
      refine ⟨w, ?_, hs⟩
      simp only [Step, hd]
      exact ⟨by trivial, by trivial⟩
    | some n =>
      have hg := ((F.rep hs.rep).defIdent n).2 hd
      obtain ⟨h, fr', e1, hi, hs'⟩ := hs.identGet_ok F ((F.rep hs.rep).coh.ident n hd)
      have e0 : fstep b fr .getDefaultIdentity = (.ident h, { fr' with dident := some h }) := by
        simp only [fstep, Front.getDefaultIdentity, hs.identsOk F, if_true, e, hg, e1]
      rw [e0]
      refine ⟨⟨w.v, issue w.hs h (.ident n)⟩, ?_, ?_⟩
      · simp only [Step, hd]
        exact ⟨h, rfl, hi, rfl⟩
      · refine hs'.edit' (db' := fr'.db) (names' := fr'.names) hs'.rep hs'.names hs'.idOk hs'.keyOk hs'.dkey ?_ ?_
        · intro o ho eo
          injection eo with eo
          have := hs'.idH o ho
          rw [← eo] at this
          simp [issue] at this
          rw [← this]; exact hd
        · intro x ex
          injection ex with ex
          subst ex
          exact hs'.lt (r := .ident n) (by simp [issue])

theorem good_removeIdentity (F : Faithful b R A) (hs : Sim R fr w) (n : PName) : Good R b fr w (.removeIdentity n) := by
  have hco := (F.rep hs.rep).coh
  obtain ⟨r1, r2⟩ := F.step (op := .removeIdentity n) hs.rep trivial (fun k e => by cases e)
  have r1' : (b.removeIdentity fr.db n).1 = .ok () := r1
  have hkeep : n ∉ fr.names → fr.ids.filter (fun o => decide (o.name ≠ n)) = fr.ids ∧
      fr.keys.filter (fun o => decide (identityOf o.name ≠ some n)) = fr.keys ∧ delName n fr.names = fr.names := by
    intro hn
    refine ⟨?_, ?_, ?_⟩
    · rw [List.filter_eq_self]; intro o ho
      simp only [ne_eq, decide_not, Bool.not_eq_true', decide_eq_false_iff_not]
      intro e; exact hn ((hs.names n).2 (e ▸ (hs.idOk o ho).1))
    · rw [List.filter_eq_self]; intro o ho
      simp only [ne_eq, decide_not, Bool.not_eq_true', decide_eq_false_iff_not]
      intro e
      obtain ⟨q, hq, e'⟩ := hs.owner o ho n ((identityOf_iff _ _).1 e)
      exact hn ((hs.names n).2 (e' ▸ (hs.idOk q hq).1))
    · unfold delName
      rw [List.filter_eq_self]; intro m hm
      simp only [ne_eq, decide_not, Bool.not_eq_true', decide_eq_false_iff_not]
      rintro rfl; exact hn hm
  have hfr2 : ∀ d' : Option Nat, (if n ∈ fr.names then ({ fr with dident := d' } : Front σ).dropIdent n else { fr with dident := d' }) =
      ({ fr with dident := d' } : Front σ).dropIdent n := by
    intro d'
    split
    · rfl
    · rename_i hn
      obtain ⟨h1, h2, h3⟩ := hkeep hn
      unfold Front.dropIdent
      simp only [h1, h2, h3]
  have hbad : ∀ d' : Option Nat, (decide (n ∉ fr.names) && (({ fr with dident := d' } : Front σ).identNamed n).isSome) = false := by
    intro d'
    show (decide (n ∉ fr.names) && (fr.identNamed n).isSome) = false
    by_cases hn : n ∈ fr.names
    · simp [hn]
    · cases e : fr.identNamed n with
      | none => simp
      | some o =>
        obtain ⟨ho, rfl⟩ := (hs.identNamed_iff n o).1 e
        exact absurd ((hs.names _).2 (hs.idOk o ho).1) hn
  have e0 : ∃ d', (∀ h, d' = some h → fr.dident = some h) ∧
      fstep b fr (.removeIdentity n) = (.done, { ({ fr with dident := d' } : Front σ).dropIdent n with db := (b.removeIdentity fr.db n).2 }) := by
    have hdb : ∀ d', (Front.dropIdent n ({ fr with dident := d' } : Front σ)).db = fr.db := fun _ => rfl
    have hc := hs.identsOk F
    have same : fr = { fr with dident := fr.dident } := rfl
    cases hb : fr.dident.bind fr.ident? with
    | none =>
      refine ⟨fr.dident, fun _ h => h, ?_⟩
      simp only [fstep, Front.removeIdentity, hc, if_true, hb]
      rw [same, hbad, hfr2]
      simp only [hdb, r1', Bool.false_eq_true, if_false]; rfl
    | some o =>
      by_cases hn : o.name = n
      · refine ⟨none, (fun _ h => by cases h), ?_⟩
        simp only [fstep, Front.removeIdentity, hc, if_true, hb, if_pos hn]
        rw [hbad, hfr2]
        simp only [hdb, r1', Bool.false_eq_true, if_false]; rfl
      · refine ⟨fr.dident, fun _ h => h, ?_⟩
        simp only [fstep, Front.removeIdentity, hc, if_true, hb, if_neg hn]
        rw [same, hbad, hfr2]
        simp only [hdb, r1', Bool.false_eq_true, if_false]; rfl
  obtain ⟨d', hd, e0⟩ := e0
  unfold Good
  rw [e0]
  refine ⟨_, ⟨rfl, rfl⟩, ?_⟩
  have h1 := hs.drop (below n) (fun i k hk h => by
    simp only [below, decide_eq_true_eq] at h
    subst h
    exact (isKeyOf_iff _ _).2 hk)
  have e1 : (fun o : IdObj => !below n (.ident o.name)) = fun o => decide (o.name ≠ n) := by
    funext o; simp [below]
  have e2 : (fun o : KeyObj => !below n (.key o.name)) = fun o => decide (identityOf o.name ≠ some n) := by
    funext o; simp [below, isKeyOf]
  rw [e1, e2] at h1
  refine h1.edit' (db' := (b.removeIdentity fr.db n).2) (v' := w.v.removeIdent n) (names' := delName n fr.names) (d' := d') r2 ?_ ?_ ?_ ?_ ?_ ?_
  · intro m
    simp only [delName, List.mem_filter, hs.names m, View.removeIdent, upd]
    by_cases hm : m = n <;> simp [hm]
  · intro o ho
    obtain ⟨ho, hne⟩ := List.mem_filter.1 ho
    have hne : o.name ≠ n := by simpa using hne
    refine (hs.idOk o ho).mono (by simp [View.removeIdent, upd, hne, (hs.idOk o ho).1]) (fun k hk => ?_)
    have : isKeyOf n k = false := by
      rw [← Bool.not_eq_true, isKeyOf_iff]; intro h; exact hne (keyName_inj hk h)
    simp [View.removeIdent, this]
  · intro o ho
    obtain ⟨ho, hne⟩ := List.mem_filter.1 ho
    have hne : ¬ KeyName n o.name := by
      rw [← identityOf_iff]; simpa using hne
    have hk : isKeyOf n o.name = false := by rw [← Bool.not_eq_true, isKeyOf_iff]; exact hne
    refine (hs.keyOk o ho).mono hco (by simp [View.removeIdent, hk]) (fun c hc => ?_) (fun _ _ => by simp [View.removeIdent, hk])
    have : isCertOfIdent n c = false := by
      rw [← Bool.not_eq_true, isCertOfIdent_iff]
      rintro ⟨l, hl, hi⟩; rw [certName_inj hl hc] at hi; exact hne hi
    simp [View.removeIdent, this]
  · intro o ho q hq e
    obtain ⟨ho, hne⟩ := List.mem_filter.1 ho
    have hne : o.name ≠ n := by simpa using hne
    have := hs.dkey o ho q (List.mem_filter.1 hq).1 e
    simp [View.removeIdent, upd, hne, this]
  · intro o ho e
    obtain ⟨ho, hne⟩ := List.mem_filter.1 ho
    have hne : o.name ≠ n := by simpa using hne
    have := hs.dident o ho (hd _ e)
    simp only [View.removeIdent]
    rw [dropDefault_ne]
    · exact this
    · rw [this]; intro e; exact hne (Option.some.inj e)
  · intro h e
    exact hs.didentLt h (hd _ e)

/-! ## Calls on an identity -/

theorem good_deadIdent (hs : Sim R fr w) {h : Nat} (hn : ∀ i, w.hs h ≠ .alive (.ident i)) {out : Out} {w' : World} {f : PName → Prop}
    (e : out = .dead) (e' : w' = w) : onIdent w h out w' f := by
  unfold onIdent
  split
  · rename_i i hi; exact absurd hi (hn i)
  · exact ⟨e, e'⟩

theorem good_deadKey (hs : Sim R fr w) {h : Nat} (hn : ∀ i, w.hs h ≠ .alive (.key i)) {out : Out} {w' : World} {f : PName → Prop}
    (e : out = .dead) (e' : w' = w) : onKey w h out w' f := by
  unfold onKey
  split
  · rename_i i hi; exact absurd hi (hn i)
  · exact ⟨e, e'⟩

theorem onIdent_alive {h : Nat} {i : PName} (hi : w.hs h = .alive (.ident i)) {out : Out} {w' : World} {f : PName → Prop} (hf : f i) :
    onIdent w h out w' f := by
  unfold onIdent; rw [hi]; exact hf

theorem onKey_alive {h : Nat} {i : PName} (hi : w.hs h = .alive (.key i)) {out : Out} {w' : World} {f : PName → Prop} (hf : f i) :
    onKey w h out w' f := by
  unfold onKey; rw [hi]; exact hf

/-- A handle is that of an identity object, or not. -/
theorem identCases (hs : Sim R fr w) (h : Nat) : (∃ o ∈ fr.ids, o.h = h ∧ w.hs h = .alive (.ident o.name) ∧ fr.ident? h = some o) ∨
    ((∀ i, w.hs h ≠ .alive (.ident i)) ∧ fr.ident? h = none) := by
  cases e : fr.ident? h with
  | none =>
    refine Or.inr ⟨fun i hi => ?_, rfl⟩
    obtain ⟨o, ho, h1, _⟩ := hs.idAll h i hi
    rw [(hs.ident?_iff h o).2 ⟨ho, h1⟩] at e; cases e
  | some o =>
    obtain ⟨ho, h1⟩ := (hs.ident?_iff h o).1 e
    exact Or.inl ⟨o, ho, h1, h1 ▸ hs.idH o ho, rfl⟩

theorem keyCases (hs : Sim R fr w) (h : Nat) : (∃ o ∈ fr.keys, o.h = h ∧ w.hs h = .alive (.key o.name) ∧ fr.key? h = some o) ∨
    ((∀ i, w.hs h ≠ .alive (.key i)) ∧ fr.key? h = none) := by
  cases e : fr.key? h with
  | none =>
    refine Or.inr ⟨fun i hi => ?_, rfl⟩
    obtain ⟨o, ho, h1, _⟩ := hs.keyAll h i hi
    rw [(hs.key?_iff h o).2 ⟨ho, h1⟩] at e; cases e
  | some o =>
    obtain ⟨ho, h1⟩ := (hs.key?_iff h o).1 e
    exact Or.inl ⟨o, ho, h1, h1 ▸ hs.keyH o ho, rfl⟩

theorem good_identName (hs : Sim R fr w) (h : Nat) : Good R b fr w (.identName h) := by
  unfold Good
  rcases hs.identCases h with ⟨o, ho, rfl, hh, e⟩ | ⟨hn, e⟩
  · simp only [fstep, Front.identName, e]
    exact ⟨w, onIdent_alive hh ⟨rfl, rfl⟩, hs⟩
  · simp only [fstep, Front.identName, e]
    exact ⟨w, hs.good_deadIdent hn rfl rfl, hs⟩

theorem good_keys (F : Faithful b R A) (hs : Sim R fr w) (h : Nat) : Good R b fr w (.keys h) := by
  unfold Good
  rcases hs.identCases h with ⟨o, ho, rfl, hh, e⟩ | ⟨hn, e⟩
  · simp only [fstep, Front.identKeys, e, hs.keysOk F (hs.idOk o ho), if_true]
    exact ⟨w, onIdent_alive hh ⟨⟨_, rfl, fun k => by rw [(hs.idOk o ho).2 k]; exact And.comm⟩, rfl⟩, hs⟩
  · simp only [fstep, Front.identKeys, e]
    exact ⟨w, hs.good_deadIdent hn rfl rfl, hs⟩

theorem good_addKey (F : Faithful b R A) (hs : Sim R fr w) (h : Nat) (bits : Bytes) (k : PName) : Good R b fr w (.addKey h bits k) := by
  unfold Good
  rcases hs.identCases h with ⟨o, ho, rfl, hh, e⟩ | ⟨hn, e⟩
  · simp only [fstep, Front.identAddKey, e, hs.keysOk F (hs.idOk o ho), if_true]
    by_cases hk : KeyName o.name k
    · obtain ⟨kh, fr', e1, hi, hs'⟩ := hs.keyAdd_ok F ho hk bits
      simp only [e1, Res.out]
      refine ⟨_, onIdent_alive hh ?_, hs'⟩
      simp only [if_pos hk]
      exact ⟨kh, rfl, hi, rfl⟩
    · simp only [keyAdd_invalid hk, Res.out]
      refine ⟨w, onIdent_alive hh ?_, hs⟩
      simp only [if_neg hk]
      exact ⟨by trivial, by trivial⟩
  · simp only [fstep, Front.identAddKey, e]
    exact ⟨w, hs.good_deadIdent hn rfl rfl, hs⟩

theorem good_getKey (F : Faithful b R A) (hs : Sim R fr w) (h : Nat) (k : PName) : Good R b fr w (.getKey h k) := by
  unfold Good
  rcases hs.identCases h with ⟨o, ho, rfl, hh, e⟩ | ⟨hn, e⟩
  · simp only [fstep, Front.identGetKey, e, hs.keysOk F (hs.idOk o ho), if_true]
    by_cases hk : KeyName o.name k
    · by_cases hv : (w.v.key k).isSome
      · obtain ⟨kh, fr', e1, hi, hs'⟩ := hs.keyGet_ok F ho hk hv
        simp only [e1, Res.out]
        refine ⟨_, onIdent_alive hh ?_, hs'⟩
        simp only [if_pos hk, if_pos hv]
        exact ⟨kh, rfl, hi, rfl⟩
      · simp only [hs.keyGet_refused F hk (by simpa using hv), Res.out]
        refine ⟨w, onIdent_alive hh ?_, hs⟩
        simp only [if_pos hk, if_neg hv]
        exact ⟨by trivial, by trivial⟩
    · simp only [keyGet_invalid hk, Res.out]
      refine ⟨w, onIdent_alive hh ?_, hs⟩
      simp only [if_neg hk]
      exact ⟨by trivial, by trivial⟩
  · simp only [fstep, Front.identGetKey, e]
    exact ⟨w, hs.good_deadIdent hn rfl rfl, hs⟩

theorem good_setDefaultKey (F : Faithful b R A) (hs : Sim R fr w) (h : Nat) (k : PName) : Good R b fr w (.setDefaultKey h k) := by
  unfold Good
  rcases hs.identCases h with ⟨o, ho, rfl, hh, e⟩ | ⟨hn, e⟩
  · simp only [fstep, Front.identSetDefaultKey, e]
    by_cases hk : KeyName o.name k
    · by_cases hv : (w.v.key k).isSome
      · obtain ⟨kh, fr', e1, hi, hs'⟩ := hs.keyGet_ok F ho hk hv
        have hne : o.h ≠ kh := by
          rintro rfl
          rcases hi.1 with h | h <;> rw [hh] at h <;> cases h
        obtain ⟨fr'', e2, hs''⟩ := hs'.setDefaultKeyObj_ok F (h := o.h) (kh := kh) (i := o.name) (k := k)
          (by simp [issue, hne, hh]) (by simp [issue]) hk
        simp only [e1, e2]
        refine ⟨_, onIdent_alive hh ?_, hs''⟩
        simp only [if_pos hk, if_pos hv]
        exact ⟨kh, rfl, hi, rfl⟩
      · simp only [hs.keyGet_refused F hk (by simpa using hv), Res.out]
        refine ⟨w, onIdent_alive hh ?_, hs⟩
        simp only [if_pos hk, if_neg hv]
        exact ⟨by trivial, by trivial⟩
    · simp only [keyGet_invalid hk, Res.out]
      refine ⟨w, onIdent_alive hh ?_, hs⟩
      simp only [if_neg hk]
      exact ⟨by trivial, by trivial⟩
  · simp only [fstep, Front.identSetDefaultKey, e]
    exact ⟨w, hs.good_deadIdent hn rfl rfl, hs⟩

theorem good_setDefaultNewKey (F : Faithful b R A) (hs : Sim R fr w) (h : Nat) (bits : Bytes) (k : PName) :
    Good R b fr w (.setDefaultNewKey h bits k) := by
  unfold Good
  rcases hs.identCases h with ⟨o, ho, rfl, hh, e⟩ | ⟨hn, e⟩
  · simp only [fstep, Front.identSetDefaultNewKey, e]
    by_cases hk : KeyName o.name k
    · obtain ⟨kh, fr', e1, hi, hs'⟩ := hs.keyAdd_ok F ho hk bits
      have hh' : kill w.hs (theKey k) o.h = .alive (.ident o.name) := by simp [kill, hh, theKey]
      have hne : o.h ≠ kh := by
        rintro rfl
        rcases hi.1 with h | h <;> rw [hh'] at h <;> cases h
      obtain ⟨fr'', e2, hs''⟩ := hs'.setDefaultKeyObj_ok F (h := o.h) (kh := kh) (i := o.name) (k := k)
        (by simp only [issue, hne, if_false]; exact hh') (by simp [issue]) hk
      simp only [e1, e2]
      refine ⟨_, onIdent_alive hh ?_, hs''⟩
      simp only [if_pos hk]
      refine ⟨kh, rfl, hi, ?_⟩
      have : upd (w.v.addKey o.name k bits).defKey o.name (some k) = upd w.v.defKey o.name (some k) := Sql.upd_upd ..
      simp only [this]
    · simp only [keyAdd_invalid hk, Res.out]
      refine ⟨w, onIdent_alive hh ?_, hs⟩
      simp only [if_neg hk]
      exact ⟨by trivial, by trivial⟩
  · simp only [fstep, Front.identSetDefaultNewKey, e]
    exact ⟨w, hs.good_deadIdent hn rfl rfl, hs⟩

theorem good_getDefaultKey (F : Faithful b R A) (hs : Sim R fr w) (h : Nat) : Good R b fr w (.getDefaultKey h) := by
  unfold Good
  rcases hs.identCases h with ⟨o, ho, rfl, hh, e⟩ | ⟨hn, e⟩
  · simp only [fstep, Front.identGetDefaultKey, e, hs.keysOk F (hs.idOk o ho), if_true]
    cases ed : o.dkey.bind fr.key? with
    | some q =>
      obtain ⟨x, hx, hq⟩ := Option.bind_eq_some_iff.1 ed
      obtain ⟨hq2, rfl⟩ := (hs.key?_iff x q).1 hq
      replace hq := hq2
      have hd := hs.dkey o ho q hq hx
      simp only [((F.rep hs.rep).defKey o.name q.name).2 hd, if_true]
      refine ⟨⟨w.v, issue w.hs q.h (.key q.name)⟩, onIdent_alive hh ?_, ?_⟩
      · simp only [hd]
        exact ⟨q.h, rfl, hs.issuedKey (hs.keyH q hq), rfl⟩
      · rw [issue_same (hs.keyH q hq)]; exact hs
    | none =>
      cases hd : w.v.defKey o.name with
      | none =>
        have hg : b.getDefaultKey fr.db o.name = .refused := by rw [(F.rep hs.rep).ans.getDefaultKey, hd]
        simp only [hg, Res.out]
        refine ⟨w, onIdent_alive hh ?_, hs⟩
        simp only [hd]
        exact ⟨by trivial, by trivial⟩
      | some k =>
        have hg := ((F.rep hs.rep).defKey o.name k).2 hd
        have hv := (F.rep hs.rep).coh.key o.name k hd
        obtain ⟨kh, fr', e1, hi, hs'⟩ := hs.keyGet_ok F ho hv.2 hv.1
        simp only [hg, e1]
        refine ⟨⟨w.v, issue w.hs kh (.key k)⟩, onIdent_alive hh ?_, ?_⟩
        · simp only [hd]
          exact ⟨kh, rfl, hi, rfl⟩
        · have hne : o.h ≠ kh := by
            rintro rfl
            rcases hi.1 with h | h <;> rw [hh] at h <;> cases h
          have hh' : issue w.hs kh (.key k) o.h = .alive (.ident o.name) := by simp [issue, hne, hh]
          have hkh : issue w.hs kh (.key k) kh = .alive (.key k) := by simp [issue]
          let f : IdObj → IdObj := fun p => if p.h = o.h then { p with dkey := some kh } else p
          refine hs'.edit f (fun q => q) (fun q => by simp only [f]; split <;> exact ⟨by trivial, by trivial⟩) (fun q => ⟨rfl, rfl⟩) rfl
            (by simp [Front.updIdent]) rfl hs'.rep hs'.names ?_ hs'.keyOk ?_ hs'.dident ?_ hs'.didentLt
          · intro p hp
            simp only [f]
            split <;> exact (hs'.idOk p hp)
          · intro p hp l hl e
            simp only [f] at e
            split at e
            · rename_i en
              injection e with e
              have h1 := hs'.idH p hp
              rw [en] at h1
              simp only at h1
              rw [hh'] at h1
              have h2 := hs'.keyH l hl
              rw [← e] at h2
              simp only at h2
              rw [hkh] at h2
              injection h1 with h1; injection h1 with h1
              injection h2 with h2; injection h2 with h2
              rw [← h1, ← h2]; exact hd
            · exact hs'.dkey p hp l hl e
          · intro p hp x e
            simp only [f] at e
            split at e
            · injection e with e; subst e; exact hs'.lt hkh
            · exact hs'.dkeyLt p hp x e
  · simp only [fstep, Front.identGetDefaultKey, e]
    exact ⟨w, hs.good_deadIdent hn rfl rfl, hs⟩

theorem good_removeKey (F : Faithful b R A) (hs : Sim R fr w) (h : Nat) (k : PName) (hA : A w.v k) : Good R b fr w (.removeKey h k) := by
  unfold Good
  rcases hs.identCases h with ⟨o, ho, rfl, hh, e⟩ | ⟨hn, e⟩
  · have hco := (F.rep hs.rep).coh
    -- the cached default
    have hsame : fr.updIdent o.h (fun p => { p with dkey := o.dkey }) = fr := by
      have : fr.ids.map (fun q => if q.h = o.h then { q with dkey := o.dkey } else q) = fr.ids := by
        conv => rhs; rw [← List.map_id fr.ids]
        refine List.map_congr_left fun q hq => ?_
        split
        · rename_i eq
          rw [hs.idEq hq ho eq]; rfl
        · rfl
      unfold Front.updIdent
      rw [this]
    have hfr1 : ∃ d' : Option Nat, (∀ x, d' = some x → o.dkey = some x) ∧ (¬ KeyName o.name k → d' = o.dkey) ∧
        fstep b fr (.removeKey o.h k) = (if identityOf k = some o.name then
          if k ∉ o.keyNames ∧ ((fr.updIdent o.h (fun p => { p with dkey := d' })).keyNamed k).isSome then
            (.ub, fr.updIdent o.h (fun p => { p with dkey := d' }))
          else
            ((b.removeKey fr.db k).1.out (fun _ => .done),
              { (fr.updIdent o.h (fun p => { p with dkey := d' })).updIdent o.h (fun o => { o with keyNames := delName k o.keyNames }) with
                keys := fr.keys.filter (fun o => decide (o.name ≠ k)), db := (b.removeKey fr.db k).2 })
        else (.invalid, fr.updIdent o.h (fun p => { p with dkey := d' }))) := by
      cases hb : o.dkey.bind fr.key? with
      | none =>
        refine ⟨o.dkey, fun _ h => h, fun _ => rfl, ?_⟩
        rw [hsame]
        simp only [fstep, Front.identRemoveKey, e, hs.keysOk F (hs.idOk o ho), if_true, hb]
        rfl
      | some q =>
        by_cases hn : q.name = k
        · refine ⟨none, (fun _ h => by cases h), fun hk => ?_, ?_⟩
          · obtain ⟨x, hx, hq⟩ := Option.bind_eq_some_iff.1 hb
            obtain ⟨hq2, rfl⟩ := (hs.key?_iff x q).1 hq
            exact absurd (hco.key _ _ (hs.dkey o ho q hq2 hx)).2 (hn ▸ hk)
          · simp only [fstep, Front.identRemoveKey, e, hs.keysOk F (hs.idOk o ho), if_true, hb, if_pos hn]
            rfl
        · refine ⟨o.dkey, fun _ h => h, fun _ => rfl, ?_⟩
          rw [hsame]
          simp only [fstep, Front.identRemoveKey, e, hs.keysOk F (hs.idOk o ho), if_true, hb, if_neg hn]
          rfl
    obtain ⟨d', hd, hd2, e0⟩ := hfr1
    rw [e0]
    by_cases hk : KeyName o.name k
    · have hki := (identityOf_iff _ _).2 hk
      have hbad : ¬ (k ∉ o.keyNames ∧ ((fr.updIdent o.h (fun o => { o with dkey := d' })).keyNamed k).isSome) := by
        rintro ⟨h1, h2⟩
        obtain ⟨q, hq⟩ := Option.isSome_iff_exists.1 h2
        have hq : fr.keyNamed k = some q := hq
        obtain ⟨hq2, rfl⟩ := (hs.keyNamed_iff k q).1 hq
        replace hq := hq2
        exact h1 (((hs.idOk o ho).2 _).2 ⟨by rw [(hs.keyOk q hq).bits]; rfl, hk⟩)
      simp only [hki, if_true, if_neg hbad]
      obtain ⟨r1, r2⟩ := F.step (op := .removeKey k) hs.rep ⟨_, hk⟩ (fun l e => by injection e with e; subst e; exact hA)
      have r1' : (b.removeKey fr.db k).1 = .ok () := r1
      simp only [r1', Res.out]
      refine ⟨⟨w.v.removeKey k, kill w.hs (theKey k)⟩, onIdent_alive hh ?_, ?_⟩
      · simp only [if_pos hk]; exact ⟨by trivial, by trivial⟩
      · let f : IdObj → IdObj := fun p => if p.h = o.h then { p with dkey := d', keyNames := delName k p.keyNames } else p
        have hne : ∀ {q : KeyObj}, q ∈ fr.keys.filter (fun o => decide (o.name ≠ k)) → q.name ≠ k := fun hq => by
          simpa using (List.mem_filter.1 hq).2
        refine (hs.dropKey k).edit f (fun q => q) (fun q => by simp only [f]; split <;> exact ⟨by trivial, by trivial⟩) (fun q => ⟨rfl, rfl⟩) ?_
            (by simp [Front.updIdent]) rfl r2 hs.names ?_ ?_ ?_ hs.dident ?_ hs.didentLt
        · simp only [Front.updIdent, List.map_map]
          refine List.map_congr_left fun q hq => ?_
          simp only [Function.comp, f]
          by_cases hqo : q.h = o.h <;> simp [hqo]
        · intro p hp
          have hp : p ∈ fr.ids := hp
          have hok := hs.idOk p hp
          simp only [f]
          split
          · refine ⟨hok.1, fun l => ?_⟩
            simp only [delName, List.mem_filter, View.removeKey, upd, hok.2 l]
            by_cases hl : l = k <;> simp [hl]
          · rename_i en
            refine hok.mono hok.1 (fun l hl => ?_)
            have : l ≠ k := by
              rintro rfl
              exact en (by rw [hs.idU p hp o ho (keyName_inj hl hk)])
            simp [View.removeKey, upd, this]
        · intro q hq
          have hn := hne hq
          have hq := (List.mem_filter.1 hq).1
          refine (hs.keyOk q hq).mono hco (by simp [View.removeKey, upd, hn]) (fun c hc => ?_) (fun _ _ => by simp [View.removeKey, upd, hn])
          have : isCertOf k c = false := by
            rw [← Bool.not_eq_true, isCertOf_iff]; intro h; exact hn (certName_inj hc h)
          simp [View.removeKey, this]
        · intro p hp l hl ed
          have hn := hne hl
          have hl := (List.mem_filter.1 hl).1
          have hp : p ∈ fr.ids := hp
          have he : p.dkey = some l.h := by
            simp only [f] at ed
            split at ed
            · rename_i en
              have : p = o := hs.idEq hp ho en
              subst this
              exact hd _ ed
            · exact ed
          have := hs.dkey p hp l hl he
          simp only [View.removeKey]
          rw [dropDefault_ne]
          · exact this
          · rw [this]; intro e; exact hn (Option.some.inj e)
        · intro p hp x ed
          have hp : p ∈ fr.ids := hp
          have he : p.dkey = some x := by
            simp only [f] at ed
            split at ed
            · rename_i en
              have : p = o := hs.idEq hp ho en
              subst this
              exact hd _ ed
            · exact ed
          exact hs.dkeyLt p hp x he
    · have hki : identityOf k ≠ some o.name := fun h => hk ((identityOf_iff _ _).1 h)
      simp only [if_neg hki]
      refine ⟨w, onIdent_alive hh ?_, ?_⟩
      · simp only [if_neg hk]; exact ⟨by trivial, by trivial⟩
      · rw [hd2 hk, hsame]; exact hs
  · simp only [fstep, Front.identRemoveKey, e]
    exact ⟨w, hs.good_deadIdent hn rfl rfl, hs⟩

/-! ## Calls on a key -/

theorem good_keyName (hs : Sim R fr w) (h : Nat) : Good R b fr w (.keyName h) := by
  unfold Good
  rcases hs.keyCases h with ⟨o, ho, rfl, hh, e⟩ | ⟨hn, e⟩
  · simp only [fstep, Front.keyName, e]
    exact ⟨w, onKey_alive hh ⟨rfl, rfl⟩, hs⟩
  · simp only [fstep, Front.keyName, e]
    exact ⟨w, hs.good_deadKey hn rfl rfl, hs⟩

theorem good_keyBits (hs : Sim R fr w) (h : Nat) : Good R b fr w (.keyBits h) := by
  unfold Good
  rcases hs.keyCases h with ⟨o, ho, rfl, hh, e⟩ | ⟨hn, e⟩
  · simp only [fstep, Front.keyBits, e]
    exact ⟨w, onKey_alive hh ⟨⟨o.bits, (hs.keyOk o ho).bits, rfl⟩, rfl⟩, hs⟩
  · simp only [fstep, Front.keyBits, e]
    exact ⟨w, hs.good_deadKey hn rfl rfl, hs⟩

theorem good_certs (F : Faithful b R A) (hs : Sim R fr w) (h : Nat) : Good R b fr w (.certs h) := by
  unfold Good
  rcases hs.keyCases h with ⟨o, ho, rfl, hh, e⟩ | ⟨hn, e⟩
  · simp only [fstep, Front.keyCerts, e, hs.certsOk F (hs.keyOk o ho), if_true]
    exact ⟨w, onKey_alive hh ⟨⟨_, rfl, fun k => by rw [(hs.keyOk o ho).names k]; exact And.comm⟩, rfl⟩, hs⟩
  · simp only [fstep, Front.keyCerts, e]
    exact ⟨w, hs.good_deadKey hn rfl rfl, hs⟩

theorem good_addCert (F : Faithful b R A) (hs : Sim R fr w) (h : Nat) (c : Crt) (hr : Real (.addCert h c)) (hf : Fits w (.addCert h c)) :
    Good R b fr w (.addCert h c) := by
  unfold Good
  rcases hs.keyCases h with ⟨o, ho, rfl, hh, e⟩ | ⟨hn, e⟩
  · have hb := (hs.keyOk o ho).bits
    simp only [fstep, Front.keyAddCert, e, hs.certsOk F (hs.keyOk o ho), if_true]
    by_cases hp : o.bits = c.pub
    · simp only [hp, if_true]
      by_cases hc : CertName o.name c.name
      · obtain ⟨fr', e1, hs'⟩ := hs.certAdd_ok F ho hc hp (fun hd => hf _ hh ⟨hc, hd⟩)
        simp only [e1, Res.out]
        refine ⟨_, onKey_alive hh ?_, hs'⟩
        rw [if_pos ⟨hc, by rw [hb, hp]⟩]; exact ⟨by trivial, by trivial⟩
      · have hkn : o.name ≠ c.keyName := by
          obtain ⟨l, hl⟩ := hr
          intro h
          rw [crt_keyName hl] at h
          exact hc (h ▸ hl)
        simp only [Front.certAdd, if_neg hkn, Res.out]
        refine ⟨w, onKey_alive hh ?_, hs⟩
        rw [if_neg (fun h => hc h.1)]; exact ⟨by trivial, by trivial⟩
    · simp only [hp, if_false]
      refine ⟨w, onKey_alive hh ?_, hs⟩
      rw [if_neg (fun h => hp (by have := h.2; rw [hb] at this; exact Option.some.inj this))]; exact ⟨by trivial, by trivial⟩
  · simp only [fstep, Front.keyAddCert, e]
    exact ⟨w, hs.good_deadKey hn rfl rfl, hs⟩

theorem certGet_ok (F : Faithful b R A) (hs : Sim R fr w) {o : KeyObj} (ho : o ∈ fr.keys) {c : PName} (hc : CertName o.name c)
    {x : Crt} (hx : w.v.cert c = some x) : ∃ fr', fr.certGet b o c = (.ok x, fr') ∧ Sim R fr' w := by
  unfold Front.certGet
  rw [if_pos ((keyOf_iff _ _).2 hc)]
  have hok := hs.keyOk o ho
  cases e : get c o.certs with
  | some y =>
    have := (hok.certs c y e).1
    rw [hx] at this; injection this with this; subst this
    exact ⟨fr, rfl, hs⟩
  | none =>
    simp only [((F.rep hs.rep).cert c x).2 hx]
    refine ⟨_, rfl, ?_⟩
    let g : KeyObj → KeyObj := fun q => if q.h = o.h then { q with certs := put c x q.certs } else q
    refine hs.edit (fun q => q) g (fun q => ⟨rfl, rfl⟩) (fun q => by simp only [g]; split <;> exact ⟨by trivial, by trivial⟩) (by simp [Front.updKey]) rfl rfl
      hs.rep hs.names hs.idOk ?_ hs.dkey hs.dident hs.dkeyLt hs.didentLt
    intro p hp
    simp only [g]
    split
    · rename_i en
      have : p = o := hs.keyEq hp ho en
      subst this
      refine ⟨hok.bits, hok.names, fun d y ed => ?_, hok.dcert⟩
      simp only [get_put] at ed
      split at ed
      · rename_i edc; subst edc; injection ed with ed; subst ed; exact ⟨hx, hc⟩
      · exact hok.certs d y ed
    · exact hs.keyOk p hp

theorem certGet_refused (F : Faithful b R A) (hs : Sim R fr w) {o : KeyObj} (ho : o ∈ fr.keys) {c : PName} (hc : CertName o.name c)
    (hx : w.v.cert c = none) : fr.certGet b o c = (.refused, fr) := by
  unfold Front.certGet
  rw [if_pos ((keyOf_iff _ _).2 hc)]
  cases e : get c o.certs with
  | some y => rw [((hs.keyOk o ho).certs c y e).1] at hx; cases hx
  | none =>
    have := (F.rep hs.rep).ans.getCertificate c
    rw [hx] at this
    simp only [this]

theorem certGet_invalid {o : KeyObj} {c : PName} (hc : ¬ CertName o.name c) : fr.certGet b o c = (.invalid, fr) := by
  unfold Front.certGet
  rw [if_neg (fun h => hc ((keyOf_iff _ _).1 h))]

theorem good_getCert (F : Faithful b R A) (hs : Sim R fr w) (h : Nat) (c : PName) : Good R b fr w (.getCert h c) := by
  unfold Good
  rcases hs.keyCases h with ⟨o, ho, rfl, hh, e⟩ | ⟨hn, e⟩
  · simp only [fstep, Front.keyGetCert, e, hs.certsOk F (hs.keyOk o ho), if_true]
    by_cases hc : CertName o.name c
    · cases hx : w.v.cert c with
      | some x =>
        obtain ⟨fr', e1, hs'⟩ := hs.certGet_ok F ho hc hx
        simp only [e1, Res.out]
        refine ⟨w, onKey_alive hh ?_, hs'⟩
        simp only [if_pos hc, hx]; exact ⟨by trivial, by trivial⟩
      | none =>
        simp only [hs.certGet_refused F ho hc hx, Res.out]
        refine ⟨w, onKey_alive hh ?_, hs⟩
        simp only [if_pos hc, hx]; exact ⟨by trivial, by trivial⟩
    · simp only [certGet_invalid hc, Res.out]
      refine ⟨w, onKey_alive hh ?_, hs⟩
      simp only [if_neg hc]; exact ⟨by trivial, by trivial⟩
  · simp only [fstep, Front.keyGetCert, e]
    exact ⟨w, hs.good_deadKey hn rfl rfl, hs⟩

theorem good_setDefaultCert (F : Faithful b R A) (hs : Sim R fr w) (h : Nat) (c : PName) : Good R b fr w (.setDefaultCert h c) := by
  unfold Good
  rcases hs.keyCases h with ⟨o, ho, rfl, hh, e⟩ | ⟨hn, e⟩
  · simp only [fstep, Front.keySetDefaultCert, e]
    by_cases hc : CertName o.name c
    · cases hx : w.v.cert c with
      | some x =>
        obtain ⟨fr', e1, hs'⟩ := hs.certGet_ok F ho hc hx
        have hxn := (F.rep hs.rep).coh.named c x hx
        obtain ⟨o', ho', hoh, hon⟩ := hs'.keyAll o.h o.name hh
        have hok' := hs'.keyOk o' ho'
        obtain ⟨r1, r2⟩ := F.step (op := .setDefaultCertificate o.name c) hs'.rep hc (fun k e => by cases e)
        simp only [next, hx, Option.isSome_some, if_true] at r1 r2
        have r1' : (b.setDefaultCertificate fr'.db o.name c).1 = .ok () := r1
        simp only [e1, Front.setDefaultCertObj, (hs'.key?_iff o.h o').2 ⟨ho', hoh⟩, hs'.certsOk F hok', if_true]
        have hdb : (fr'.updKey o.h (fun o => { o with dcert := some x })).db = fr'.db := rfl
        simp only [hdb, hon, hxn, r1', Res.out]
        refine ⟨⟨{ w.v with defCert := upd w.v.defCert o.name (some c) }, w.hs⟩, onKey_alive hh ?_, ?_⟩
        · simp only [if_pos hc, hx]; exact ⟨by trivial, by trivial⟩
        · let g : KeyObj → KeyObj := fun q => if q.h = o.h then { q with dcert := some x } else q
          refine hs'.edit (fun q => q) g (fun q => ⟨rfl, rfl⟩) (fun q => by simp only [g]; split <;> exact ⟨by trivial, by trivial⟩) (by simp [Front.updKey]) rfl rfl
            r2 hs'.names hs'.idOk ?_ hs'.dkey hs'.dident hs'.dkeyLt hs'.didentLt
          intro p hp
          have hok := hs'.keyOk p hp
          simp only [g]
          split
          · rename_i en
            have : p = o' := hs'.keyEq hp ho' (en.trans hoh.symm)
            subst this
            refine ⟨hok.bits, hok.names, hok.certs, fun y ey => ?_⟩
            injection ey with ey; subst ey
            simp only [upd, hon, if_true]
            rw [hxn]
            exact ⟨rfl, hx⟩
          · rename_i en
            refine hok.mono (F.rep hs'.rep).coh rfl (fun _ _ => rfl) (fun _ _ => ?_)
            have hne : p.name ≠ o.name := fun e' => en (by rw [hs'.keyU p hp o' ho' (e'.trans hon.symm)]; exact hoh)
            simp [upd, hne]
      | none =>
        simp only [hs.certGet_refused F ho hc hx, Res.out]
        refine ⟨w, onKey_alive hh ?_, hs⟩
        simp only [if_pos hc, hx]; exact ⟨by trivial, by trivial⟩
    · simp only [certGet_invalid hc, Res.out]
      refine ⟨w, onKey_alive hh ?_, hs⟩
      simp only [if_neg hc]; exact ⟨by trivial, by trivial⟩
  · simp only [fstep, Front.keySetDefaultCert, e]
    exact ⟨w, hs.good_deadKey hn rfl rfl, hs⟩

theorem good_setDefaultNewCert (F : Faithful b R A) (hs : Sim R fr w) (h : Nat) (c : Crt) (hr : Real (.setDefaultNewCert h c))
    (hf : Fits w (.setDefaultNewCert h c)) : Good R b fr w (.setDefaultNewCert h c) := by
  unfold Good
  rcases hs.keyCases h with ⟨o, ho, rfl, hh, e⟩ | ⟨hn, e⟩
  · have hok := hs.keyOk o ho
    simp only [fstep, Front.keySetDefaultNewCert, e]
    by_cases hc : CertName o.name c.name
    · have hkn := crt_keyName hc
      have hb : o.bits = c.pub := by
        have := hf _ hh hc
        rw [hok.bits] at this; exact Option.some.inj this
      have hrep := hs.certAdd_rep F hc
      obtain ⟨r1, r2⟩ := F.step (op := .setDefaultCertificate o.name c.name) hrep hc (fun k e => by cases e)
      have hcs : ((w.v.addCert c).cert c.name).isSome = true := by simp [View.addCert, upd]
      simp only [next, hcs, if_true] at r1 r2
      have r1' : (b.setDefaultCertificate (b.addCertificate fr.db c) o.name c.name).1 = .ok () := r1
      let g1 : KeyObj → KeyObj := fun q => { q with certNames := insName c.name q.certNames, certs := put c.name c q.certs }
      have hadd : fr.certAdd b o c = (.ok (), { fr.updKey o.h g1 with db := b.addCertificate fr.db c }) := by
        unfold Front.certAdd; rw [if_pos hkn.symm]; rfl
      have hfind : Front.key? { fr.updKey o.h g1 with db := b.addCertificate fr.db c } o.h = some (g1 o) :=
        find_upd (f := g1) (fun _ => rfl) e
      have hcon : Front.certsConsistent b { fr.updKey o.h g1 with db := b.addCertificate fr.db c } (g1 o) = true := by
        obtain ⟨l, el, hl⟩ := (F.rep hrep).ans.getCertificatesOfKey o.name
        unfold Front.certsConsistent
        show (match b.getCertificatesOfKey (b.addCertificate fr.db c) o.name with
          | .ok l => sameSet (insName c.name o.certNames) l
          | _ => false) = true
        rw [el]
        exact sameSet_of (certNames_add hok hc) hl
      simp only [hadd, Front.setDefaultCertObj, hfind, hcon, if_true]
      have hdb : (Front.updKey { fr.updKey o.h g1 with db := b.addCertificate fr.db c } o.h (fun o => { o with dcert := some c })).db =
        b.addCertificate fr.db c := rfl
      have hgn : (g1 o).name = o.name := rfl
      simp only [hdb, hgn, r1', Res.out]
      refine ⟨⟨{ w.v.addCert c with defCert := upd (w.v.addCert c).defCert o.name (some c.name) }, w.hs⟩, onKey_alive hh ?_, ?_⟩
      · rw [if_pos ⟨hc, by rw [hok.bits, hb]⟩]
        refine ⟨rfl, ?_⟩
        have : upd (w.v.addCert c).defCert o.name (some c.name) = upd w.v.defCert o.name (some c.name) := by
          simp only [View.addCert, hkn]; exact Sql.upd_upd ..
        rw [this]
      · let g : KeyObj → KeyObj := fun q => { g1 q with dcert := some c }
        have hst : (Front.updKey { fr.updKey o.h g1 with db := b.addCertificate fr.db c } o.h (fun o => { o with dcert := some c })).keys =
            (fr.updKey o.h g).keys := by
          simp only [Front.updKey, List.map_map]
          refine List.map_congr_left fun q hq => ?_
          simp only [Function.comp, g, g1]
          by_cases hqo : q.h = o.h <;> simp [hqo]
        have := hs.certEdit F ho hc hb (v' := { w.v.addCert c with defCert := upd (w.v.addCert c).defCert o.name (some c.name) }) g
          (fun q => ⟨rfl, rfl⟩) r2 rfl rfl rfl rfl rfl
          (fun l hl => by simp [View.addCert, upd, hkn, hl])
          ⟨by
            show (w.v.addCert c).key o.name = some o.bits
            rw [addCert_key F hs ho hc hb]; exact hok.bits,
           certNames_add hok hc,
           fun x y ex => by
            replace ex : get x (put c.name c o.certs) = some y := ex
            rw [get_put] at ex
            show (w.v.addCert c).cert x = some y ∧ _
            simp only [View.addCert, upd]
            split at ex
            · rename_i exx
              subst exx
              rw [if_pos rfl]; exact ⟨ex, hc⟩
            · rename_i exx
              rw [if_neg exx]; exact hok.certs x y ex,
           fun x ex => by
            have ex : some c = some x := ex
            injection ex with ex; subst ex
            refine ⟨by simp [upd, g, g1], by simp [View.addCert, upd]⟩⟩
        have hfe : ({ Front.updKey { fr.updKey o.h g1 with db := b.addCertificate fr.db c } o.h (fun o => { o with dcert := some c }) with
            db := (b.setDefaultCertificate (b.addCertificate fr.db c) o.name c.name).2 } : Front σ) =
            { fr.updKey o.h g with db := (b.setDefaultCertificate (b.addCertificate fr.db c) o.name c.name).2 } := by
          unfold Front.updKey at hst ⊢
          simp only at hst ⊢
          rw [hst]
        rw [hfe]
        exact this
    · have hkn : o.name ≠ c.keyName := by
        obtain ⟨l, hl⟩ := hr
        intro h
        rw [crt_keyName hl] at h
        exact hc (h ▸ hl)
      simp only [Front.certAdd, if_neg hkn, Res.out]
      refine ⟨w, onKey_alive hh ?_, hs⟩
      rw [if_neg (fun h => hc h.1)]; exact ⟨by trivial, by trivial⟩
  · simp only [fstep, Front.keySetDefaultNewCert, e]
    exact ⟨w, hs.good_deadKey hn rfl rfl, hs⟩

theorem good_getDefaultCert (F : Faithful b R A) (hs : Sim R fr w) (h : Nat) : Good R b fr w (.getDefaultCert h) := by
  unfold Good
  rcases hs.keyCases h with ⟨o, ho, rfl, hh, e⟩ | ⟨hn, e⟩
  · have hok := hs.keyOk o ho
    simp only [fstep, Front.keyGetDefaultCert, e, hs.certsOk F hok, if_true]
    cases hd : o.dcert with
    | some x =>
      have hx := hok.dcert x hd
      simp only [((F.rep hs.rep).defCert o.name x).2 hx, if_true]
      refine ⟨w, onKey_alive hh ?_, hs⟩
      simp only [hx.1, Option.bind_some, hx.2]; exact ⟨by trivial, by trivial⟩
    | none =>
      have hg := (F.rep hs.rep).ans.getDefaultCertificate o.name
      cases hx : (w.v.defCert o.name).bind w.v.cert with
      | none =>
        rw [hx] at hg
        simp only [hg, Res.out]
        refine ⟨w, onKey_alive hh ?_, hs⟩
        simp only [hx]; exact ⟨by trivial, by trivial⟩
      | some x =>
        rw [hx] at hg
        simp only at hg
        have hx' := ((F.rep hs.rep).defCert o.name x).1 hg
        simp only [hg]
        refine ⟨w, onKey_alive hh ?_, ?_⟩
        · simp only [hx]; exact ⟨by trivial, by trivial⟩
        · let g : KeyObj → KeyObj := fun q => if q.h = o.h then { q with dcert := some x } else q
          refine hs.edit (fun q => q) g (fun q => ⟨rfl, rfl⟩) (fun q => by simp only [g]; split <;> exact ⟨by trivial, by trivial⟩) (by simp [Front.updKey]) rfl rfl
            hs.rep hs.names hs.idOk ?_ hs.dkey hs.dident hs.dkeyLt hs.didentLt
          intro p hp
          simp only [g]
          split
          · rename_i en
            have : p = o := hs.keyEq hp ho en
            subst this
            refine ⟨hok.bits, hok.names, hok.certs, fun y ey => ?_⟩
            injection ey with ey; subst ey
            exact hx'
          · exact hs.keyOk p hp
  · simp only [fstep, Front.keyGetDefaultCert, e]
    exact ⟨w, hs.good_deadKey hn rfl rfl, hs⟩

theorem good_removeCert (F : Faithful b R A) (hs : Sim R fr w) (h : Nat) (c : PName) : Good R b fr w (.removeCert h c) := by
  unfold Good
  rcases hs.keyCases h with ⟨o, ho, rfl, hh, e⟩ | ⟨hn, e⟩
  · have hco := (F.rep hs.rep).coh
    have hok := hs.keyOk o ho
    have hsame : fr.updKey o.h (fun p => { p with dcert := o.dcert }) = fr := by
      have : fr.keys.map (fun q => if q.h = o.h then { q with dcert := o.dcert } else q) = fr.keys := by
        conv => rhs; rw [← List.map_id fr.keys]
        refine List.map_congr_left fun q hq => ?_
        split
        · rename_i eq
          rw [hs.keyEq hq ho eq]; rfl
        · rfl
      unfold Front.updKey
      rw [this]
    have hfr1 : ∃ d' : Option Crt, (∀ x, d' = some x → o.dcert = some x ∧ x.name ≠ c) ∧ (¬ CertName o.name c → d' = o.dcert) ∧
        fstep b fr (.removeCert o.h c) = (if keyOf c = some o.name then
          if c ∉ o.certNames ∧ (get c o.certs).isSome then
            (.ub, fr.updKey o.h (fun p => { p with dcert := d' }))
          else
            ((b.removeCertificate fr.db c).1.out (fun _ => .done),
              { (fr.updKey o.h (fun p => { p with dcert := d' })).updKey o.h
                  (fun o => { o with certNames := delName c o.certNames, certs := del c o.certs }) with
                db := (b.removeCertificate fr.db c).2 })
        else (.invalid, fr.updKey o.h (fun p => { p with dcert := d' }))) := by
      cases hb : o.dcert with
      | none =>
        refine ⟨o.dcert, (fun x h => by rw [hb] at h; cases h), fun _ => hb, ?_⟩
        rw [hsame]
        simp only [fstep, Front.keyRemoveCert, e, hs.certsOk F hok, if_true, hb]
        rfl
      | some q =>
        by_cases hn : q.name = c
        · refine ⟨none, (fun _ h => by cases h), fun hk => ?_, ?_⟩
          · exact absurd (hco.cert _ _ (hok.dcert q hb).1).2 (hn ▸ hk)
          · simp only [fstep, Front.keyRemoveCert, e, hs.certsOk F hok, if_true, hb, if_pos hn]
            rfl
        · refine ⟨o.dcert, fun x h => ?_, fun _ => hb, ?_⟩
          · rw [hb] at h; injection h with h; subst h; exact ⟨rfl, hn⟩
          rw [hsame]
          simp only [fstep, Front.keyRemoveCert, e, hs.certsOk F hok, if_true, hb, if_neg hn]
          rfl
    obtain ⟨d', hd, hd2, e0⟩ := hfr1
    rw [e0]
    by_cases hc : CertName o.name c
    · have hkc := (keyOf_iff _ _).2 hc
      have hbad : ¬ (c ∉ o.certNames ∧ (get c o.certs).isSome) := by
        rintro ⟨h1, h2⟩
        obtain ⟨x, hx⟩ := Option.isSome_iff_exists.1 h2
        have := hok.certs c x hx
        exact h1 ((hok.names c).2 ⟨by rw [this.1]; rfl, this.2⟩)
      simp only [hkc, if_true, if_neg hbad]
      obtain ⟨r1, r2⟩ := F.step (op := .removeCertificate c) hs.rep ⟨_, hc⟩ (fun k e => by cases e)
      have r1' : (b.removeCertificate fr.db c).1 = .ok () := r1
      simp only [r1', Res.out]
      refine ⟨⟨w.v.removeCert c, w.hs⟩, onKey_alive hh ?_, ?_⟩
      · simp only [if_pos hc]; exact ⟨by trivial, by trivial⟩
      · let g : KeyObj → KeyObj := fun p => if p.h = o.h then { p with dcert := d', certNames := delName c p.certNames, certs := del c p.certs } else p
        refine hs.edit (fun q => q) g (fun q => ⟨rfl, rfl⟩) (fun q => by simp only [g]; split <;> exact ⟨by trivial, by trivial⟩) (by simp [Front.updKey]) ?_ rfl
            r2 hs.names hs.idOk ?_ hs.dkey hs.dident hs.dkeyLt hs.didentLt
        · simp only [Front.updKey, List.map_map]
          refine List.map_congr_left fun q hq => ?_
          simp only [Function.comp, g]
          by_cases hqo : q.h = o.h <;> simp [hqo]
        · intro p hp
          simp only [g]
          split
          · rename_i en
            have : p = o := hs.keyEq hp ho en
            subst this
            refine ⟨hok.bits, fun x => ?_, fun x y ex => ?_, fun x ex => ?_⟩
            · simp only [delName, List.mem_filter, hok.names x, View.removeCert, upd]
              by_cases hx : x = c <;> simp [hx]
            · simp only [get_del] at ex
              split at ex
              · cases ex
              · rename_i hx
                simp only [View.removeCert, upd, hx, if_false]
                exact hok.certs x y ex
            · simp only at ex
              obtain ⟨hy, hne⟩ := hd _ ex
              have := hok.dcert _ hy
              simp only [View.removeCert, upd, hne, if_false]
              rw [dropDefault_ne]
              · exact this
              · rw [this.1]; intro e; exact hne (Option.some.inj e)
          · rename_i en
            have hne : p.name ≠ o.name := fun e' => en (by rw [hs.keyU p hp o ho e'])
            refine (hs.keyOk p hp).mono hco rfl (fun x hx => ?_) (fun _ _ => ?_)
            · simp only [View.removeCert, upd]
              rw [if_neg]
              rintro rfl; exact hne (certName_inj hx hc)
            · simp only [View.removeCert]
              rw [dropDefault_ne]
              intro e; exact hne (certName_inj (hco.cert _ _ e).2 hc)
    · have hki : keyOf c ≠ some o.name := fun h => hc ((keyOf_iff _ _).1 h)
      simp only [if_neg hki]
      refine ⟨w, onKey_alive hh ?_, ?_⟩
      · simp only [if_neg hc]; exact ⟨by trivial, by trivial⟩
      · rw [hd2 hc, hsame]; exact hs
  · simp only [fstep, Front.keyRemoveCert, e]
    exact ⟨w, hs.good_deadKey hn rfl rfl, hs⟩

theorem good_reset (F : Faithful b R A) (hs : Sim R fr w) : Good R b fr w .reset := by
  unfold Good
  have r2 := (F.step (op := .clear) hs.rep trivial (fun k e => by cases e)).2
  have r2' : R (b.clear fr.db) View.empty := r2
  refine ⟨⟨View.empty, kill w.hs (fun _ => true)⟩, ⟨rfl, rfl⟩, ?_⟩
  have hk : ∀ h r, kill w.hs (fun _ => true) h ≠ .alive r := by
    intro h r
    simp only [kill]
    cases w.hs h <;> simp
  refine ⟨r2', (F.rep r2').ans.getIdentities, ?_, ?_, ?_, ?_, ?_, ?_, ?_, ?_, ?_, ?_, ?_, ?_, ?_, ?_⟩
  · intro o ho; cases ho
  · intro o ho; cases ho
  · intro h n e; exact absurd e (hk _ _)
  · intro o ho; cases ho
  · intro o ho; cases ho
  · intro o ho; cases ho
  · intro h n e; exact absurd e (hk _ _)
  · intro o ho; cases ho
  · intro o ho; cases ho
  · intro o ho; cases ho
  · intro o ho; cases ho
  · intro h l
    show kill w.hs (fun _ => true) h = .unused
    have : w.hs h = .unused := hs.fresh h l
    simp [kill, this]
  · intro o ho; cases ho
  · intro h e; cases e

theorem good (F : Faithful b R A) (hs : Sim R fr w) (op : FOp) (hr : Real op) (hf : Fits w op)
    (hA : ∀ h k, op = .removeKey h k → A w.v k) : Good R b fr w op := by
  cases op with
  | addIdentity n => exact hs.good_addIdentity F n
  | removeIdentity n => exact hs.good_removeIdentity F n
  | getIdentity n => exact hs.good_getIdentity F n
  | identities => exact hs.good_identities F
  | setDefaultIdentity n => exact hs.good_setDefaultIdentity F n
  | getDefaultIdentity => exact hs.good_getDefaultIdentity F
  | identName h => exact hs.good_identName h
  | addKey h bits k => exact hs.good_addKey F h bits k
  | removeKey h k => exact hs.good_removeKey F h k (hA h k rfl)
  | getKey h k => exact hs.good_getKey F h k
  | keys h => exact hs.good_keys F h
  | setDefaultKey h k => exact hs.good_setDefaultKey F h k
  | setDefaultNewKey h bits k => exact hs.good_setDefaultNewKey F h bits k
  | getDefaultKey h => exact hs.good_getDefaultKey F h
  | keyName h => exact hs.good_keyName h
  | keyBits h => exact hs.good_keyBits h
  | addCert h c => exact hs.good_addCert F h c hr hf
  | removeCert h c => exact hs.good_removeCert F h c
  | getCert h c => exact hs.good_getCert F h c
  | certs h => exact hs.good_certs F h
  | setDefaultCert h c => exact hs.good_setDefaultCert F h c
  | setDefaultNewCert h c => exact hs.good_setDefaultNewCert F h c hr hf
  | getDefaultCert h => exact hs.good_getDefaultCert F h
  | reset => exact hs.good_reset F

end Sim

theorem start_sim {σ : Type} {b : Backend σ} {R : σ → View → Prop} {A : View → PName → Prop} (F : Faithful b R A) :
    Sim R (Front.start b b.init) World.init := by
  refine ⟨F.init, (F.rep F.init).ans.getIdentities, ?_, ?_, ?_, ?_, ?_, ?_, ?_, ?_, ?_, ?_, ?_, ?_, ?_, ?_⟩
  · intro o ho; cases ho
  · intro o ho; cases ho
  · intro h n e; cases e
  · intro o ho; cases ho
  · intro o ho; cases ho
  · intro o ho; cases ho
  · intro h n e; cases e
  · intro o ho; cases ho
  · intro o ho; cases ho
  · intro o ho; cases ho
  · intro o ho; cases ho
  · intro h l; rfl
  · intro o ho; cases ho
  · intro h e; cases e

theorem conforms {σ : Type} {b : Backend σ} {R : σ → View → Prop} {A : View → PName → Prop} (F : Faithful b R A)
    {P : World → FOp → Prop} (hP : ∀ w op, P w op → Fits w op ∧ ∀ h k, op = .removeKey h k → A w.v k) (ops : List FOp) :
    (∀ op ∈ ops, Real op) → ∀ {fr : Front σ} {w : World}, Sim R fr w → Conforms P w ops (frun b ops fr).1 := by
  induction ops with
  | nil => intro _ fr w _; trivial
  | cons op ops ih =>
    intro hr fr w hs hp
    obtain ⟨w', h1, h2⟩ := hs.good F op (hr op (List.mem_cons_self ..)) (hP w op hp).1 (hP w op hp).2
    exact ⟨w', h1, ih (fun o ho => hr o (List.mem_cons_of_mem _ ho)) h2⟩

theorem sqlite_faithful : Faithful sqlite Sql.Inv (fun _ _ => True) where
  init := Sql.inv_init
  rep := fun h => h.rep
  step := fun h hp _ => Sql.step_inv h hp

theorem memory_faithful : Faithful memory (fun s v => s.view = v ∧ Coherent v) (fun v k => DropsDefault v (.removeKey k)) where
  init := ⟨memory_init, coherent_empty⟩
  rep := fun h => by obtain ⟨rfl, h⟩ := h; exact Mem.rep h
  step := fun {s v op} h hp hA => by
    obtain ⟨rfl, h⟩ := h
    have hs := Mem.step_view h hp
    have hd : DropsDefault s.view op := by
      cases op with
      | removeKey k => exact hA k rfl
      | _ => trivial
    rw [memNext_eq h hp hd] at hs
    exact ⟨hs.1, hs.2, coherent_next h hp⟩

end Ndn.Pib
