import Verif.Pib.Sql
namespace Ndn.Pib
open Ndn.Name Spec
namespace Sql
variable {s : Sql} {v : View}

theorem upd_same {β : Type} (f : PName → β) (k : PName) (x : β) (h : f k = x) : upd f k x = f := by
  funext y
  simp only [upd]
  split
  · rename_i e; rw [e, h]
  · rfl

theorem upd_upd {β : Type} (f : PName → β) (k : PName) (x y : β) : upd (upd f k x) k y = upd f k y := by
  funext z
  simp only [upd]
  split <;> rfl

theorem orElse_some' (d n : PName) : orElse (some d) n = some d := rfl
theorem orElse_none (n : PName) : orElse none n = some n := rfl

theorem setDefaultIdentity_ok (h : Inv s v) {n : PName} (hn : v.ident n = true) :
    s.setDefaultIdentity n = (.ok (), { s with ids := markIdent n s.ids }) := by
  unfold setDefaultIdentity
  rw [h.hasIdentity, if_pos hn]

theorem inv_addIdentity (h : Inv s v) (n : PName) : Inv (s.addIdentity n) (v.addIdent n) := by
  have key : ∀ s1, (Inv s1 v ∧ v.ident n = true) ∨ Inv s1 (v.addIdent n) →
      Inv (if s1.hasDefaultIdentity then s1 else (s1.setDefaultIdentity n).2) (v.addIdent n) := by
    rintro s1 (⟨h1, hn⟩ | h1)
    · rw [h1.hasDefaultIdentity]
      cases hd : v.defIdent with
      | none =>
        rw [if_neg (by simp), setDefaultIdentity_ok h1 hn]
        have := inv_markIdent h1 hn
        have e : v.addIdent n = { v with defIdent := some n } := by
          simp only [View.addIdent, hd, orElse_none, upd_same v.ident n true hn]
        rw [e]; exact this
      | some d =>
        rw [if_pos (by simp)]
        have e : v.addIdent n = v := by
          simp only [View.addIdent, hd, orElse_some', upd_same v.ident n true hn]
          rw [← hd]
        rw [e]; exact h1
    · rw [h1.hasDefaultIdentity, if_pos (by simp [View.addIdent, orElse])]
      exact h1
  unfold addIdentity
  apply key
  cases hi : v.ident n with
  | true =>
    rw [h.hasIdentity, hi]
    exact Or.inl ⟨h, rfl⟩
  | false =>
    right
    rw [h.hasIdentity, hi]
    simp only [Bool.false_eq_true, if_false, insertIdent]
    have h1 := inv_newIdent h hi
    have e := h1.hasDefaultIdentity
    simp only [hasDefaultIdentity] at e
    rw [e]
    cases hd : v.defIdent with
    | none =>
      rw [if_neg (by simp)]
      have := inv_markIdent (n := n) h1 (by simp [upd])
      simp only [View.addIdent, hd, orElse_none]
      exact this
    | some d =>
      rw [if_pos (by simp)]
      simp only [View.addIdent, hd, orElse_some']
      rw [← hd]
      exact h1

theorem setDefaultKey_ok (h : Inv s v) {i k : PName} (hn : (v.key k).isSome) :
    s.setDefaultKey i k = (.ok (), { s with keys := markKey k s.keys }) := by
  unfold setDefaultKey
  rw [h.hasKey, if_pos hn]

theorem setDefaultCertificate_ok (h : Inv s v) {i k : PName} (hn : (v.cert k).isSome) :
    s.setDefaultCertificate i k = (.ok (), { s with certs := markCert k s.certs }) := by
  unfold setDefaultCertificate
  rw [h.hasCertificate, if_pos hn]

/-- The key is there, and what follows selects a default. -/
theorem inv_defaultKey (h : Inv s v) {i k : PName} (hk : (v.key k).isSome) (hi : KeyName i k) :
    Inv (if s.hasDefaultKey i then s else (s.setDefaultKey i k).2) { v with defKey := upd v.defKey i (orElse (v.defKey i) k) } := by
  rw [h.hasDefaultKey]
  cases hd : v.defKey i with
  | none =>
    rw [if_neg (by simp), setDefaultKey_ok h hk, orElse_none]
    exact inv_markKey h hk hi
  | some d =>
    rw [if_pos (by simp), orElse_some', upd_same v.defKey i (some d) hd]
    exact h

theorem inv_defaultCert (h : Inv s v) {k c : PName} (hc : (v.cert c).isSome) (hk : CertName k c) :
    Inv (if s.hasDefaultCertificate k then s else (s.setDefaultCertificate k c).2) { v with defCert := upd v.defCert k (orElse (v.defCert k) c) } := by
  rw [h.hasDefaultCertificate]
  cases hd : v.defCert k with
  | none =>
    rw [if_neg (by simp), setDefaultCertificate_ok h hc, orElse_none]
    exact inv_markCert h hc hk
  | some d =>
    rw [if_pos (by simp), orElse_some', upd_same v.defCert k (some d) hd]
    exact h

theorem inv_updateKey (h : Inv s v) {k : PName} (hk : (v.key k).isSome) (bits : Bytes) :
    Inv { s with keys := s.keys.map (fun r => if r.name = k then { r with bits := bits } else r) } { v with key := upd v.key k (some bits) } := by
  obtain ⟨b, hb⟩ := Option.isSome_iff_exists.1 hk
  obtain ⟨r0, h0, e0, _⟩ := (h.key k b).1 hb
  refine h.reKeys (d := v.defKey) (fun r => r.dflt) (fun r => if r.name = k then bits else r.bits) ?_ ?_ h.defKey ?_
  · intro q
    simp only [List.mem_map]
    constructor
    · rintro ⟨r, hr, rfl⟩; refine ⟨r, hr, ?_⟩; split <;> rfl
    · rintro ⟨r, hr, rfl⟩; refine ⟨r, hr, ?_⟩; split <;> rfl
  · intro l b
    simp only [upd]
    split
    · rename_i e
      subst e
      constructor
      · rintro ⟨⟩; exact ⟨r0, h0, e0, by rw [if_pos e0]⟩
      · rintro ⟨r, hr, e, hx⟩; rw [if_pos e] at hx; rw [hx]
    · rename_i e
      rw [h.key]
      constructor
      · rintro ⟨r, hr, rfl, rfl⟩; exact ⟨r, hr, rfl, by rw [if_neg e]⟩
      · rintro ⟨r, hr, rfl, hx⟩; rw [if_neg e] at hx; exact ⟨r, hr, rfl, hx⟩
  · refine ⟨h.co.ident, fun j l hj => ?_, h.co.cert, fun l hl => ?_, fun c hc => ?_, h.co.named⟩
    · refine ⟨?_, (h.co.key _ _ hj).2⟩
      simp only [upd]
      split
      · rfl
      · exact (h.co.key _ _ hj).1
    · simp only [upd] at hl
      split at hl
      · rename_i e; subst e
        exact h.co.parent _ hk
      · exact h.co.parent l hl
    · obtain ⟨l, hl, hs⟩ := h.co.issuer c hc
      refine ⟨l, hl, ?_⟩
      simp only [upd]
      split
      · rfl
      · exact hs

theorem inv_updateCert (h : Inv s v) {c : Crt} (hk : (v.cert c.name).isSome) :
    Inv { s with certs := s.certs.map (fun r => if r.name = c.name then { r with crt := c } else r) } { v with cert := upd v.cert c.name (some c) } := by
  obtain ⟨b, hb⟩ := Option.isSome_iff_exists.1 hk
  obtain ⟨r0, h0, e0, _⟩ := (h.cert c.name b).1 hb
  refine h.reCerts (d := v.defCert) (fun r => r.dflt) (fun r => if r.name = c.name then c else r.crt) ?_ ?_ h.defCert ?_
  · intro q
    simp only [List.mem_map]
    constructor
    · rintro ⟨r, hr, rfl⟩; refine ⟨r, hr, ?_⟩; split <;> rfl
    · rintro ⟨r, hr, rfl⟩; refine ⟨r, hr, ?_⟩; split <;> rfl
  · intro l b
    simp only [upd]
    split
    · rename_i e
      subst e
      constructor
      · rintro ⟨⟩; exact ⟨r0, h0, e0, by rw [if_pos e0]⟩
      · rintro ⟨r, hr, e, hx⟩; rw [if_pos e] at hx; rw [hx]
    · rename_i e
      rw [h.cert]
      constructor
      · rintro ⟨r, hr, rfl, rfl⟩; exact ⟨r, hr, rfl, by rw [if_neg e]⟩
      · rintro ⟨r, hr, rfl, hx⟩; rw [if_neg e] at hx; exact ⟨r, hr, rfl, hx⟩
  · refine ⟨h.co.ident, h.co.key, fun j l hj => ?_, h.co.parent, fun d hd => ?_, fun d x hd => ?_⟩
    · refine ⟨?_, (h.co.cert _ _ hj).2⟩
      simp only [upd]
      split
      · rfl
      · exact (h.co.cert _ _ hj).1
    · simp only [upd] at hd
      split at hd
      · rename_i e; subst e
        exact h.co.issuer _ hk
      · exact h.co.issuer d hd
    · simp only [upd] at hd
      split at hd
      · rename_i e; cases hd; exact e.symm
      · exact h.co.named d x hd

theorem inv_insertKey (h : Inv s v) {i k : PName} (hi : KeyName i k) {q0 : IdRow} (hq0 : q0 ∈ s.ids) (hq : q0.name = i)
    (hn : v.key k = none) (bits : Bytes) :
    Inv { s with keys := insertKey q0.id k bits s.keys } { v with key := upd v.key k (some bits), defKey := upd v.defKey i (orElse (v.defKey i) k) } := by
  subst hq
  have h1 := inv_newKey h hq0 hi hn bits
  unfold insertKey
  have e : (s.keys ++ [(⟨newId (s.keys.map (·.id)), q0.id, k, bits, false⟩ : KeyRow)]).any (fun r => r.dflt && decide (r.identity = q0.id)) = (v.defKey q0.name).isSome := by
    apply bool_ext
    rw [Option.isSome_iff_exists, List.any_eq_true]
    have e2 : ∀ l, v.defKey q0.name = some l ↔ _ := fun l => h1.defKey q0.name l
    simp only [e2, Bool.and_eq_true, decide_eq_true_eq]
    constructor
    · rintro ⟨r, hr, hd, hg⟩
      exact ⟨r.name, r, hr, rfl, hd, (h1.key_grp hr hq0).1 hg⟩
    · rintro ⟨_, r, hr, rfl, hd, hg⟩
      exact ⟨r, hr, hd, (h1.key_grp hr hq0).2 hg⟩
  simp only [e]
  cases hd : v.defKey q0.name with
  | none =>
    rw [if_neg (by simp), orElse_none]
    exact inv_markKey h1 (by simp [upd]) hi
  | some d =>
    rw [if_pos (by simp), orElse_some', upd_same v.defKey q0.name (some d) hd]
    exact h1

theorem inv_insertCert (h : Inv s v) {k : PName} {c : Crt} (hi : CertName k c.name) {q0 : KeyRow} (hq0 : q0 ∈ s.keys) (hq : q0.name = k)
    (hn : v.cert c.name = none) :
    Inv { s with certs := insertCert q0.id c s.certs } { v with cert := upd v.cert c.name (some c), defCert := upd v.defCert k (orElse (v.defCert k) c.name) } := by
  subst hq
  have h1 := inv_newCert h hq0 hi hn
  unfold insertCert
  have e : (s.certs ++ [(⟨newId (s.certs.map (·.id)), q0.id, c.name, c, false⟩ : CertRow)]).any (fun r => r.dflt && decide (r.key = q0.id)) = (v.defCert q0.name).isSome := by
    apply bool_ext
    rw [Option.isSome_iff_exists, List.any_eq_true]
    have e2 : ∀ l, v.defCert q0.name = some l ↔ _ := fun l => h1.defCert q0.name l
    simp only [e2, Bool.and_eq_true, decide_eq_true_eq]
    constructor
    · rintro ⟨r, hr, hd, hg⟩
      exact ⟨r.name, r, hr, rfl, hd, (h1.cert_grp hr hq0).1 hg⟩
    · rintro ⟨_, r, hr, rfl, hd, hg⟩
      exact ⟨r, hr, hd, (h1.cert_grp hr hq0).2 hg⟩
  simp only [e]
  cases hd : v.defCert q0.name with
  | none =>
    rw [if_neg (by simp), orElse_none]
    exact inv_markCert h1 (by simp [upd]) hi
  | some d =>
    rw [if_pos (by simp), orElse_some', upd_same v.defCert q0.name (some d) hd]
    exact h1

theorem orElse_orElse (d : Option PName) (n : PName) : orElse (orElse d n) n = orElse d n := by cases d <;> rfl

theorem inv_addKey (h : Inv s v) {i k : PName} (hi : KeyName i k) (bits : Bytes) : Inv (s.addKey i k bits) (v.addKey i k bits) := by
  have ha := inv_addIdentity h i
  have hid : (v.addIdent i).ident i = true := by simp [View.addIdent, upd]
  unfold addKey
  generalize s.addIdentity i = s1 at ha
  obtain ⟨q0, hq0, hqn⟩ := (ha.ident i).1 hid
  simp only
  rw [ha.hasKey]
  have hkey : (v.addIdent i).key = v.key := rfl
  have hdk : (v.addIdent i).defKey = v.defKey := rfl
  cases hk : v.key k with
  | some b =>
    have hb : ((v.addIdent i).key k).isSome = true := by rw [hkey, hk]; rfl
    simp only [hb, if_true]
    have h1 := inv_updateKey ha (k := k) (by rw [hkey, hk]; rfl) bits
    exact inv_defaultKey h1 (by simp [upd]) hi
  | none =>
    have hb : ((v.addIdent i).key k).isSome = false := by rw [hkey, hk]; rfl
    simp only [hb, Bool.false_eq_true, if_false]
    rw [(ha.idRow_iff i q0).2 ⟨hq0, hqn⟩]
    simp only
    have h1 := inv_insertKey ha hi hq0 hqn (by rw [hkey, hk]) bits
    have h2 := inv_defaultKey h1 (i := i) (k := k) (by simp [upd]) hi
    have e : v.addKey i k bits = _ := rfl
    simp only [upd_upd] at h2
    have e3 : orElse (upd (v.addIdent i).defKey i (orElse ((v.addIdent i).defKey i) k) i) k = orElse (v.defKey i) k := by
      simp only [upd, if_true, orElse_orElse]; rfl
    rw [e3] at h2
    exact h2

theorem inv_addCertificate (h : Inv s v) {c : Crt} {k : PName} (hc : CertName k c.name) : Inv (s.addCertificate c) (v.addCert c) := by
  have hi := crt_identity hc
  rw [← crt_keyName hc] at hi hc
  have ha := inv_addKey h hi c.pub
  unfold addCertificate
  generalize s.addKey c.identity c.keyName c.pub = s1 at ha
  have hks : (v.addKey c.identity c.keyName c.pub).key c.keyName = some c.pub := by simp [View.addKey, upd]
  obtain ⟨q0, hq0, hqn, _⟩ := (ha.key c.keyName c.pub).1 hks
  simp only
  rw [ha.hasCertificate]
  have hcert : (v.addKey c.identity c.keyName c.pub).cert = v.cert := rfl
  cases hk : v.cert c.name with
  | some b =>
    have hb : ((v.addKey c.identity c.keyName c.pub).cert c.name).isSome = true := by rw [hcert, hk]; rfl
    simp only [hb, if_true]
    have h1 := inv_updateCert ha (c := c) (by rw [hcert, hk]; rfl)
    exact inv_defaultCert h1 (by simp [upd]) hc
  | none =>
    have hb : ((v.addKey c.identity c.keyName c.pub).cert c.name).isSome = false := by rw [hcert, hk]; rfl
    simp only [hb, Bool.false_eq_true, if_false]
    rw [(ha.keyRow_iff _ q0).2 ⟨hq0, hqn⟩]
    simp only
    have h1 := inv_insertCert ha hc hq0 hqn (by rw [hcert, hk])
    have h2 := inv_defaultCert h1 (k := c.keyName) (c := c.name) (by simp [upd]) hc
    simp only [upd_upd] at h2
    have e3 : orElse (upd (v.addKey c.identity c.keyName c.pub).defCert c.keyName (orElse ((v.addKey c.identity c.keyName c.pub).defCert c.keyName) c.name) c.keyName) c.name = orElse (v.defCert c.keyName) c.name := by
      simp only [upd, if_true, orElse_orElse]; rfl
    rw [e3] at h2
    exact h2

/-! ## Deleting -/

/-- Removing the keys whose names satisfy `P`. -/
def dropKeys (v : View) (P : PName → Bool) : View :=
  { v with
    key := fun k => if P k then none else v.key k
    defKey := fun i => (v.defKey i).bind (fun k => if P k then none else some k)
    cert := fun c => if (keyOf c).any P then none else v.cert c
    defCert := fun k => if P k then none else v.defCert k }

theorem dropKeys_coherent (hv : Coherent v) (P : PName → Bool) : Coherent (dropKeys v P) := by
  constructor
  · exact hv.ident
  · intro i k h
    simp only [dropKeys, Option.bind_eq_some_iff] at h ⊢
    obtain ⟨k', hk', h⟩ := h
    split at h
    · cases h
    · rename_i hp
      cases h
      rw [if_neg hp]
      exact hv.key _ _ hk'
  · intro k c h
    simp only [dropKeys] at h ⊢
    split at h
    · cases h
    · rename_i hp
      have := hv.cert _ _ h
      rw [(keyOf_iff _ _).2 this.2, Option.any_some, if_neg hp]
      exact this
  · intro k h
    simp only [dropKeys] at h
    split at h
    · cases h
    · exact hv.parent k h
  · intro c h
    simp only [dropKeys] at h ⊢
    split at h
    · cases h
    · rename_i hp
      obtain ⟨k, hk, hs⟩ := hv.issuer c h
      rw [(keyOf_iff _ _).2 hk, Option.any_some] at hp
      exact ⟨k, hk, by rw [if_neg hp]; exact hs⟩
  · intro c x h
    simp only [dropKeys] at h
    split at h
    · cases h
    · exact hv.named c x h

theorem inv_deleteKeys (h : Inv s v) {p : KeyRow → Bool} {P : PName → Bool} (hp : ∀ r ∈ s.keys, p r = P r.name) :
    Inv (deleteKeys p s) (dropKeys v P) := by
  have hmem : ∀ r, r ∈ (deleteKeys p s).keys ↔ r ∈ s.keys ∧ P r.name = false := by
    intro r
    simp only [deleteKeys, List.mem_filter, Bool.not_eq_true']
    constructor
    · rintro ⟨hr, hb⟩; exact ⟨hr, by rw [← hp r hr]; exact hb⟩
    · rintro ⟨hr, hb⟩; exact ⟨hr, by rw [hp r hr]; exact hb⟩
  have hcmem : ∀ r, r ∈ (deleteKeys p s).certs ↔ r ∈ s.certs ∧ (keyOf r.name).any P = false := by
    intro r
    simp only [deleteKeys, cascadeCerts, List.mem_filter, decide_eq_true_eq, List.mem_map, not_exists, not_and]
    constructor
    · rintro ⟨hr, hb⟩
      refine ⟨hr, ?_⟩
      obtain ⟨q, hq, e, hc⟩ := h.certRef r hr
      rw [(keyOf_iff _ _).2 hc, Option.any_some, ← hp q hq]
      cases hpq : p q with
      | false => rfl
      | true => exact absurd e (hb q ⟨hq, hpq⟩)
    · rintro ⟨hr, hb⟩
      refine ⟨hr, ?_⟩
      rintro q ⟨hq, hpq⟩ e
      have hc := (h.cert_grp hr hq).1 e.symm
      rw [(keyOf_iff _ _).2 hc, Option.any_some, ← hp q hq, hpq] at hb
      cases hb
  refine ⟨dropKeys_coherent h.co P, h.idName, h.idId, ?_, ?_, ?_, ?_, ?_, h.ident, h.defIdent, ?_, ?_, ?_, ?_⟩
  · exact fun r hr q hq e => h.keyName r ((hmem r).1 hr).1 q ((hmem q).1 hq).1 e
  · exact fun r hr q hq e => h.keyId r ((hmem r).1 hr).1 q ((hmem q).1 hq).1 e
  · exact fun r hr q hq e => h.certName r ((hcmem r).1 hr).1 q ((hcmem q).1 hq).1 e
  · exact fun r hr => h.keyRef r ((hmem r).1 hr).1
  · intro r hr
    obtain ⟨hr, hb⟩ := (hcmem r).1 hr
    obtain ⟨q, hq, e, hc⟩ := h.certRef r hr
    rw [(keyOf_iff _ _).2 hc, Option.any_some] at hb
    exact ⟨q, (hmem q).2 ⟨hq, hb⟩, e, hc⟩
  · intro k b
    simp only [dropKeys]
    split
    · rename_i hP
      simp only [reduceCtorEq, false_iff]
      rintro ⟨r, hr, rfl, _⟩
      rw [((hmem r).1 hr).2] at hP; cases hP
    · rename_i hP
      rw [h.key]
      constructor
      · rintro ⟨r, hr, rfl, e⟩; exact ⟨r, (hmem r).2 ⟨hr, by simpa using hP⟩, rfl, e⟩
      · rintro ⟨r, hr, rfl, e⟩; exact ⟨r, ((hmem r).1 hr).1, rfl, e⟩
  · intro i k
    simp only [dropKeys, Option.bind_eq_some_iff, h.defKey]
    constructor
    · rintro ⟨k', ⟨r, hr, rfl, hd, hk⟩, e⟩
      split at e
      · cases e
      · rename_i hP
        cases e
        exact ⟨r, (hmem r).2 ⟨hr, by simpa using hP⟩, rfl, hd, hk⟩
    · rintro ⟨r, hr, rfl, hd, hk⟩
      have := (hmem r).1 hr
      exact ⟨r.name, ⟨r, this.1, rfl, hd, hk⟩, by rw [if_neg (by simp [this.2])]⟩
  · intro c x
    simp only [dropKeys]
    split
    · rename_i hP
      simp only [reduceCtorEq, false_iff]
      rintro ⟨r, hr, rfl, _⟩
      rw [((hcmem r).1 hr).2] at hP; cases hP
    · rename_i hP
      rw [h.cert]
      constructor
      · rintro ⟨r, hr, rfl, e⟩; exact ⟨r, (hcmem r).2 ⟨hr, by simpa using hP⟩, rfl, e⟩
      · rintro ⟨r, hr, rfl, e⟩; exact ⟨r, ((hcmem r).1 hr).1, rfl, e⟩
  · intro k c
    simp only [dropKeys]
    split
    · rename_i hP
      simp only [reduceCtorEq, false_iff]
      rintro ⟨r, hr, rfl, _, hk⟩
      have := ((hcmem r).1 hr).2
      rw [(keyOf_iff _ _).2 hk, Option.any_some, hP] at this; cases this
    · rename_i hP
      rw [h.defCert]
      constructor
      · rintro ⟨r, hr, rfl, e, hk⟩
        exact ⟨r, (hcmem r).2 ⟨hr, by rw [(keyOf_iff _ _).2 hk, Option.any_some]; simpa using hP⟩, rfl, e, hk⟩
      · rintro ⟨r, hr, rfl, e⟩; exact ⟨r, ((hcmem r).1 hr).1, rfl, e⟩

theorem inv_removeKey (h : Inv s v) (k : PName) : Inv (s.removeKey k).2 (v.removeKey k) := by
  have h1 := inv_deleteKeys h (p := fun r => decide (r.name = k)) (P := fun x => decide (x = k)) (fun r _ => rfl)
  have e : dropKeys v (fun x => decide (x = k)) = v.removeKey k := by
    ext x : 2
    any_goals rfl
    · simp only [dropKeys, View.removeKey, upd, decide_eq_true_eq]
    · simp only [dropKeys, View.removeKey, decide_eq_true_eq]
      cases v.defKey x with
      | none => rfl
      | some l => simp only [Option.bind_some, dropDefault, Option.some.injEq]
    · simp only [dropKeys, View.removeKey, isCertOf]
      congr 1
      cases keyOf x <;> simp
    · simp only [dropKeys, View.removeKey, upd, decide_eq_true_eq]
  rw [e] at h1
  exact h1

theorem inv_dropIdent (h : Inv s v) {n : PName} (hn : ∀ k, (v.key k).isSome → ¬ KeyName n k) :
    Inv { s with ids := s.ids.filter (fun r => !decide (r.name = n)) } { v with ident := upd v.ident n false, defIdent := dropDefault v.defIdent n } := by
  have hmem : ∀ r, r ∈ s.ids.filter (fun r => !decide (r.name = n)) ↔ r ∈ s.ids ∧ r.name ≠ n := by simp
  refine ⟨?_, ?_, ?_, h.keyName, h.keyId, h.certName, ?_, h.certRef, ?_, ?_, h.key, h.defKey, h.cert, h.defCert⟩
  · refine ⟨fun j hj => ?_, h.co.key, h.co.cert, fun k hk => ?_, h.co.issuer, h.co.named⟩
    · rw [dropDefault_some] at hj
      simp only [upd]
      rw [if_neg hj.2]
      exact h.co.ident _ hj.1
    · obtain ⟨j, hj, hi⟩ := h.co.parent k hk
      refine ⟨j, hj, ?_⟩
      simp only [upd]
      rw [if_neg]
      · exact hi
      · intro e; subst e; exact hn k hk hj
  · exact fun r hr q hq e => h.idName r ((hmem r).1 hr).1 q ((hmem q).1 hq).1 e
  · exact fun r hr q hq e => h.idId r ((hmem r).1 hr).1 q ((hmem q).1 hq).1 e
  · intro r hr
    obtain ⟨q, hq, e, hk⟩ := h.keyRef r hr
    refine ⟨q, (hmem q).2 ⟨hq, ?_⟩, e, hk⟩
    intro e'
    rw [e'] at hk
    exact hn r.name (by rw [(h.key r.name r.bits).2 ⟨r, hr, rfl, rfl⟩]; rfl) hk
  · intro m
    simp only [upd]
    split
    · rename_i e; subst e
      simp only [Bool.false_eq_true, false_iff]
      rintro ⟨r, hr, e⟩
      exact ((hmem r).1 hr).2 e
    · rename_i e
      rw [h.ident]
      constructor
      · rintro ⟨r, hr, rfl⟩; exact ⟨r, (hmem r).2 ⟨hr, e⟩, rfl⟩
      · rintro ⟨r, hr, rfl⟩; exact ⟨r, ((hmem r).1 hr).1, rfl⟩
  · intro m
    rw [dropDefault_some, h.defIdent]
    constructor
    · rintro ⟨⟨r, hr, rfl, hd⟩, e⟩; exact ⟨r, (hmem r).2 ⟨hr, e⟩, rfl, hd⟩
    · rintro ⟨r, hr, rfl, hd⟩
      have := (hmem r).1 hr
      exact ⟨⟨r, this.1, rfl, hd⟩, this.2⟩

theorem inv_removeIdentity (h : Inv s v) (n : PName) : Inv (s.removeIdentity n).2 (v.removeIdent n) := by
  have hp : ∀ r ∈ s.keys, decide (r.identity ∈ (s.ids.filter (fun r => decide (r.name = n))).map (·.id)) = isKeyOf n r.name := by
    intro r hr
    apply bool_ext
    rw [isKeyOf_iff]
    simp only [decide_eq_true_eq, List.mem_map, List.mem_filter]
    constructor
    · rintro ⟨q, ⟨hq, rfl⟩, e⟩
      exact (h.key_grp hr hq).1 e.symm
    · intro hk
      obtain ⟨q, hq, e, hk'⟩ := h.keyRef r hr
      exact ⟨q, ⟨hq, keyName_inj hk' hk⟩, e⟩
  have h1 := inv_deleteKeys h hp
  have h2 := inv_dropIdent h1 (n := n) (by
    intro k hk hn
    simp only [dropKeys] at hk
    rw [if_pos ((isKeyOf_iff _ _).2 hn)] at hk
    cases hk)
  have e : ({ dropKeys v (isKeyOf n) with ident := upd (dropKeys v (isKeyOf n)).ident n false, defIdent := dropDefault (dropKeys v (isKeyOf n)).defIdent n } : View) = v.removeIdent n := by
    ext x : 2
    any_goals rfl
    · simp only [dropKeys, View.removeIdent, upd]
      cases hd : v.defKey x with
      | none => simp
      | some k =>
        have hk := (h.co.key _ _ hd).2
        simp only [Option.bind_some]
        by_cases hx : x = n
        · subst hx
          rw [if_pos ((isKeyOf_iff _ _).2 hk), if_pos rfl]
        · rw [if_neg (fun hk' => hx (keyName_inj hk ((isKeyOf_iff _ _).1 hk'))), if_neg hx]
    · simp only [dropKeys, View.removeIdent, isCertOfIdent]
      congr 1
      cases keyOf x <;> simp [isKeyOf]
  rw [e] at h2
  exact h2

theorem inv_clear (h : Inv s v) : Inv s.clear View.empty := by
  have e : s.clear = Sql.init := by
    have hk : ∀ r ∈ s.keys, r.identity ∈ s.ids.map (·.id) := by
      intro r hr
      obtain ⟨q, hq, e, _⟩ := h.keyRef r hr
      exact List.mem_map.2 ⟨q, hq, e⟩
    have hc : ∀ r ∈ s.certs, r.key ∈ s.keys.map (·.id) := by
      intro r hr
      obtain ⟨q, hq, e, _⟩ := h.certRef r hr
      exact List.mem_map.2 ⟨q, hq, e⟩
    unfold Sql.clear deleteIdents deleteKeys cascadeCerts Sql.init
    have ft : s.ids.filter (fun _ => true) = s.ids := List.filter_eq_self.2 (by simp)
    have ff : s.ids.filter (fun _ => !true) = [] := List.filter_eq_nil_iff.2 (by simp)
    simp only [ft, ff, Sql.mk.injEq, true_and]
    constructor
    · rw [List.filter_eq_nil_iff]
      intro r hr
      simpa using hk r hr
    · rw [List.filter_eq_nil_iff]
      intro r hr
      simp only [decide_eq_true_eq, Decidable.not_not]
      obtain ⟨q, hq, e, _⟩ := h.certRef r hr
      refine List.mem_map.2 ⟨q, ?_, e⟩
      rw [List.mem_filter]
      exact ⟨hq, decide_eq_true (hk q hq)⟩
  rw [e]
  exact inv_init

theorem inv_removeCertificate (h : Inv s v) (c : PName) : Inv (s.removeCertificate c).2 (v.removeCert c) := by
  have hmem : ∀ r, r ∈ s.certs.filter (fun r => !decide (r.name = c)) ↔ r ∈ s.certs ∧ r.name ≠ c := by simp
  refine ⟨coherent_removeCert h.co c, h.idName, h.idId, h.keyName, h.keyId, ?_, h.keyRef, ?_, h.ident, h.defIdent, h.key, h.defKey, ?_, ?_⟩
  · exact fun r hr q hq e => h.certName r ((hmem r).1 hr).1 q ((hmem q).1 hq).1 e
  · exact fun r hr => h.certRef r ((hmem r).1 hr).1
  · intro m x
    simp only [View.removeCert, upd]
    split
    · rename_i e; subst e
      simp only [reduceCtorEq, false_iff]
      rintro ⟨r, hr, e, _⟩
      exact ((hmem r).1 hr).2 e
    · rename_i e
      rw [h.cert]
      constructor
      · rintro ⟨r, hr, rfl, hx⟩; exact ⟨r, (hmem r).2 ⟨hr, e⟩, rfl, hx⟩
      · rintro ⟨r, hr, rfl, hx⟩; exact ⟨r, ((hmem r).1 hr).1, rfl, hx⟩
  · intro k m
    simp only [View.removeCert]
    rw [dropDefault_some, h.defCert]
    constructor
    · rintro ⟨⟨r, hr, rfl, hd⟩, e⟩; exact ⟨r, (hmem r).2 ⟨hr, e⟩, rfl, hd⟩
    · rintro ⟨r, hr, rfl, hd⟩
      have := (hmem r).1 hr
      exact ⟨⟨r, this.1, rfl, hd⟩, this.2⟩

/-- Every call does what is specified. -/
theorem step_inv (h : Inv s v) {op : Op} (hp : Proper op) :
    (step sqlite s op).1 = (next v op).1 ∧ Inv (step sqlite s op).2 (next v op).2 := by
  cases op with
  | addIdentity i => exact ⟨rfl, inv_addIdentity h i⟩
  | removeIdentity i => exact ⟨rfl, inv_removeIdentity h i⟩
  | setDefaultIdentity i =>
    simp only [step, sqlite, next]
    cases hi : v.ident i with
    | true => rw [setDefaultIdentity_ok h hi]; exact ⟨rfl, inv_markIdent h hi⟩
    | false => simp only [setDefaultIdentity, h.hasIdentity, hi]; exact ⟨rfl, h⟩
  | addKey i k bits => exact ⟨rfl, inv_addKey h hp bits⟩
  | removeKey k => exact ⟨rfl, inv_removeKey h k⟩
  | setDefaultKey i k =>
    simp only [step, sqlite, next]
    cases hi : (v.key k).isSome with
    | true => rw [setDefaultKey_ok h hi]; exact ⟨rfl, inv_markKey h hi hp⟩
    | false => simp only [setDefaultKey, h.hasKey, hi]; exact ⟨rfl, h⟩
  | addCertificate c => exact ⟨rfl, inv_addCertificate h hp.choose_spec⟩
  | removeCertificate c => exact ⟨rfl, inv_removeCertificate h c⟩
  | setDefaultCertificate k c =>
    simp only [step, sqlite, next]
    cases hi : (v.cert c).isSome with
    | true => rw [setDefaultCertificate_ok h hi]; exact ⟨rfl, inv_markCert h hi hp⟩
    | false => simp only [setDefaultCertificate, h.hasCertificate, hi]; exact ⟨rfl, h⟩
  | clear => exact ⟨rfl, inv_clear h⟩

end Sql
end Ndn.Pib
