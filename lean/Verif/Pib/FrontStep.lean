import Verif.Pib.FrontSim
namespace Ndn.Pib
open Ndn.Name Spec

theorem issue_same {hs : Nat → HState} {h : Nat} {r : Ref} (e : hs h = .alive r) : issue hs h r = hs := by
  funext x
  simp only [issue]
  split
  · rename_i hx; rw [hx, e]
  · rfl

theorem IdOk.mono {v v' : View} {o : IdObj} (h : IdOk v o) (h1 : v'.ident o.name = true)
    (h2 : ∀ k, KeyName o.name k → (v'.key k).isSome = (v.key k).isSome) : IdOk v' o := by
  refine ⟨h1, fun k => ?_⟩
  rw [h.2 k]
  constructor
  · rintro ⟨a, b⟩; exact ⟨by rw [h2 k b]; exact a, b⟩
  · rintro ⟨a, b⟩; exact ⟨by rw [← h2 k b]; exact a, b⟩

theorem KeyOk.mono {v v' : View} {o : KeyObj} (hv : Coherent v) (h : KeyOk v o) (h1 : v'.key o.name = v.key o.name)
    (h2 : ∀ c, CertName o.name c → v'.cert c = v.cert c)
    (h3 : ∀ x, o.dcert = some x → v'.defCert o.name = v.defCert o.name) : KeyOk v' o := by
  refine ⟨by rw [h1]; exact h.bits, fun c => ?_, fun c x e => ?_, fun x e => ?_⟩
  · rw [h.names c]
    constructor
    · rintro ⟨a, b⟩; exact ⟨by rw [h2 c b]; exact a, b⟩
    · rintro ⟨a, b⟩; exact ⟨by rw [← h2 c b]; exact a, b⟩
  · have := h.certs c x e
    exact ⟨by rw [h2 c this.2]; exact this.1, this.2⟩
  · have := h.dcert x e
    exact ⟨by rw [h3 x e]; exact this.1, by rw [h2 _ (hv.cert _ _ this.1).2]; exact this.2⟩

namespace Sim
variable {σ : Type} {b : Backend σ} {R : σ → View → Prop} {A : View → PName → Prop} {fr : Front σ} {w : World}

theorem issuedIdent (hs : Sim R fr w) {h : Nat} {n : PName} (e : w.hs h = .alive (.ident n)) : Issued w.hs h (.ident n) := by
  refine ⟨Or.inl e, fun x hx => ?_⟩
  obtain ⟨o, ho, rfl, h2⟩ := hs.idAll x n hx
  obtain ⟨q, hq, rfl, h3⟩ := hs.idAll h n e
  rw [hs.idU o ho q hq (h2.trans h3.symm)]

theorem issuedKey (hs : Sim R fr w) {h : Nat} {n : PName} (e : w.hs h = .alive (.key n)) : Issued w.hs h (.key n) := by
  refine ⟨Or.inl e, fun x hx => ?_⟩
  obtain ⟨o, ho, rfl, h2⟩ := hs.keyAll x n hx
  obtain ⟨q, hq, rfl, h3⟩ := hs.keyAll h n e
  rw [hs.keyU o ho q hq (h2.trans h3.symm)]

/-- Only the database changes. -/
theorem edit' (hs : Sim R fr w) {db' : σ} {v' : View} {names' : List PName} {d' : Option Nat}
    (rep : R db' v') (names : ∀ n, n ∈ names' ↔ v'.ident n = true)
    (idOk : ∀ o ∈ fr.ids, IdOk v' o) (keyOk : ∀ o ∈ fr.keys, KeyOk v' o)
    (dkey : ∀ o ∈ fr.ids, ∀ q ∈ fr.keys, o.dkey = some q.h → v'.defKey o.name = some q.name)
    (dident : ∀ o ∈ fr.ids, d' = some o.h → v'.defIdent = some o.name)
    (didentLt : ∀ h, d' = some h → h < fr.next) :
    Sim R { fr with db := db', names := names', dident := d' } ⟨v', w.hs⟩ :=
  hs.edit (fr' := { fr with db := db', names := names', dident := d' }) (fun o => o) (fun o => o) (fun _ => ⟨rfl, rfl⟩) (fun _ => ⟨rfl, rfl⟩)
    (by simp) (by simp) rfl rep names idOk keyOk dkey dident hs.dkeyLt didentLt

theorem identGet_ok (F : Faithful b R A) (hs : Sim R fr w) {n : PName} (hn : w.v.ident n = true) :
    ∃ h fr', fr.identGet b n = (.ok h, fr') ∧ Issued w.hs h (.ident n) ∧ Sim R fr' ⟨w.v, issue w.hs h (.ident n)⟩ := by
  unfold Front.identGet
  cases e : fr.identNamed n with
  | some o =>
    obtain ⟨ho, rfl⟩ := (hs.identNamed_iff n o).1 e
    refine ⟨o.h, fr, rfl, hs.issuedIdent (hs.idH o ho), ?_⟩
    rw [issue_same (hs.idH o ho)]
    exact hs
  | none =>
    obtain ⟨fr', h1, h2, h3⟩ := hs.newIdent F hn e
    simp only [(F.rep hs.rep).ans.hasIdentity, hn, if_true]
    exact ⟨_, fr', h1, h3, h2⟩

theorem identGet_refused (F : Faithful b R A) (hs : Sim R fr w) {n : PName} (hn : w.v.ident n = false) :
    fr.identGet b n = (.refused, fr) := by
  unfold Front.identGet
  cases e : fr.identNamed n with
  | some o =>
    obtain ⟨ho, rfl⟩ := (hs.identNamed_iff n o).1 e
    rw [(hs.idOk o ho).1] at hn; cases hn
  | none => simp [(F.rep hs.rep).ans.hasIdentity, hn]

theorem identAdd_ok (F : Faithful b R A) (hs : Sim R fr w) (n : PName) :
    ∃ h fr', fr.identAdd b n = (.ok h, fr') ∧ Issued w.hs h (.ident n) ∧
      Sim R fr' ⟨withIdent w.v n, issue w.hs h (.ident n)⟩ := by
  unfold Front.identAdd withIdent
  by_cases hn : w.v.ident n = true
  · rw [if_pos ((hs.names n).2 hn), if_pos hn]
    exact hs.identGet_ok F hn
  · rw [if_neg (fun h => hn ((hs.names n).1 h)), if_neg hn]
    have hr := (F.step (op := .addIdentity n) hs.rep trivial (fun k e => by cases e)).2
    have h1 := hs.edit' (db' := b.addIdentity fr.db n) (v' := w.v.addIdent n) (names' := n :: fr.names) (d' := fr.dident) hr
      (fun m => by
        simp only [List.mem_cons, View.addIdent, upd, hs.names m]
        by_cases hm : m = n <;> simp [hm])
      (fun o ho => (hs.idOk o ho).mono (by simp [View.addIdent, upd, (hs.idOk o ho).1]) (fun _ _ => rfl))
      (fun o ho => (hs.keyOk o ho).mono (F.rep hs.rep).coh rfl (fun _ _ => rfl) (fun _ _ => rfl))
      hs.dkey
      (fun o ho e => by
        have := hs.dident o ho e
        simp [View.addIdent, this, orElse])
      hs.didentLt
    have h0 : fr.identNamed n = none := by
      cases e : fr.identNamed n with
      | none => rfl
      | some o =>
        obtain ⟨ho, rfl⟩ := (hs.identNamed_iff n o).1 e
        exact absurd (hs.idOk o ho).1 hn
    have h0' : Front.identNamed { fr with names := n :: fr.names, db := b.addIdentity fr.db n } n = none := h0
    simp only [h0']
    obtain ⟨fr', e1, e2, e3⟩ := h1.newIdent F (n := n) (by simp [View.addIdent, upd]) h0
    exact ⟨_, fr', e1, e3, e2⟩

theorem dropKey (hs : Sim R fr w) (k : PName) :
    Sim R { fr with keys := fr.keys.filter (fun o => decide (o.name ≠ k)) } ⟨w.v, kill w.hs (theKey k)⟩ := by
  have h := hs.drop (theKey k) (fun i k _ h => by simp [theKey] at h)
  have e1 : fr.ids.filter (fun o => !theKey k (.ident o.name)) = fr.ids := by
    rw [List.filter_eq_self]; intro o _; simp [theKey]
  have e2 : (fun o : KeyObj => !theKey k (.key o.name)) = fun o => decide (o.name ≠ k) := by
    funext o; simp [theKey]
  rw [e1, e2] at h
  exact h

theorem newKey_filter {fr fr' : Front σ} {k : PName} {bits : Bytes} {h : Nat}
    (e : Front.newKey b k bits { fr with keys := fr.keys.filter (fun o => decide (o.name ≠ k)) } = (.ok h, fr')) :
    fr.newKey b k bits = (.ok h, fr') := by
  unfold Front.newKey at e ⊢
  simp only [List.filter_filter, Bool.and_self] at e
  split at e
  · split at e
    · rename_i hh; rw [if_pos hh]; exact e
    · cases e
  · rename_i r hr
    cases hx : b.getCertificatesOfKey fr.db k with
    | ok l => exact absurd hx (hr l)
    | _ => rw [hx] at e; cases e

theorem keyAdd_ok (F : Faithful b R A) (hs : Sim R fr w) {o : IdObj} (ho : o ∈ fr.ids) {k : PName} (hk : KeyName o.name k)
    (bits : Bytes) :
    ∃ h fr', fr.keyAdd b o bits k = (.ok h, fr') ∧ Issued (kill w.hs (theKey k)) h (.key k) ∧
      Sim R fr' ⟨w.v.addKey o.name k bits, issue (kill w.hs (theKey k)) h (.key k)⟩ := by
  have h1 := hs.dropKey k
  have hr := (F.step (op := .addKey o.name k bits) hs.rep hk (fun k e => by cases e)).2
  have hco := (F.rep hs.rep).coh
  let f : IdObj → IdObj := fun q => if q.h = o.h then { q with keyNames := insName k q.keyNames } else q
  have h2 := h1.edit (fr' := { fr with
      keys := fr.keys.filter (fun o => decide (o.name ≠ k)), ids := fr.ids.map f, db := b.addKey fr.db o.name k bits })
    (v' := w.v.addKey o.name k bits) f (fun q => q) (fun q => by simp only [f]; split <;> exact ⟨rfl, rfl⟩)
    (fun q => ⟨rfl, rfl⟩) rfl (by simp) rfl hr
    (fun n => by
      show n ∈ fr.names ↔ _
      rw [hs.names n]
      simp only [View.addKey, View.addIdent, upd]
      by_cases hn : n = o.name
      · simp [hn, (hs.idOk o ho).1]
      · simp [hn])
    (fun q hq => by
      have hq : q ∈ fr.ids := hq
      have hok := hs.idOk q hq
      simp only [f]
      split
      · rename_i e
        have : q = o := hs.idEq hq ho e
        subst this
        refine ⟨by simp [View.addKey, View.addIdent, upd], fun l => ?_⟩
        simp only [insName]
        have hb := hok.2 l
        simp only [View.addKey, upd]
        by_cases hl : l = k
        · subst hl
          simp only [if_true, Option.isSome_some, true_and]
          constructor
          · intro _; exact hk
          · intro _; split
            · assumption
            · exact List.mem_cons_self ..
        · simp only [hl, if_false]
          rw [← hb]
          split
          · rfl
          · simp [hl]
      · rename_i e
        refine hok.mono (by simp [View.addKey, View.addIdent, upd, hok.1]) (fun l hl => ?_)
        have : l ≠ k := by
          rintro rfl
          have := keyName_inj hl hk
          exact e (by rw [hs.idU q hq o ho this])
        simp [View.addKey, upd, this])
    (fun q hq => by
      obtain ⟨hq, hne⟩ := List.mem_filter.1 hq
      have hne : q.name ≠ k := by simpa using hne
      exact (hs.keyOk q hq).mono hco (by simp [View.addKey, upd, hne]) (fun _ _ => rfl) (fun _ _ => rfl))
    (fun q hq l hl e => by
      obtain ⟨hl, hne⟩ := List.mem_filter.1 hl
      have hd : q.dkey = some l.h := by
        simp only [f] at e
        split at e <;> exact e
      have := hs.dkey q hq l hl hd
      simp only [View.addKey, upd]
      split
      · rename_i en; rw [← en, this]; rfl
      · exact this)
    (fun q hq e => by
      have := hs.dident q hq e
      simp [View.addKey, View.addIdent, this, orElse])
    (fun q hq h e => by
      have hd : q.dkey = some h := by
        simp only [f] at e
        split at e <;> exact e
      exact hs.dkeyLt q hq h hd)
    hs.didentLt
  obtain ⟨fr', e1, e2, e3, _⟩ := h2.newKey F (k := k) (bits := bits) (by simp [View.addKey, upd])
    (fun q hq => by simpa using (List.mem_filter.1 hq).2)
    (fun i hi => by
      have := keyName_inj hi hk
      refine ⟨f o, List.mem_map_of_mem ho, ?_⟩
      simp only [f, if_true]
      exact this.symm)
  refine ⟨_, fr', ?_, e3, e2⟩
  unfold Front.keyAdd
  rw [if_pos ((identityOf_iff _ _).2 hk)]
  exact newKey_filter (b := b) (fr := { fr with ids := fr.ids.map f, db := b.addKey fr.db o.name k bits }) e1

theorem keyGet_ok (F : Faithful b R A) (hs : Sim R fr w) {o : IdObj} (ho : o ∈ fr.ids) {k : PName} (hk : KeyName o.name k)
    (hv : (w.v.key k).isSome) :
    ∃ h fr', fr.keyGet b o k = (.ok h, fr') ∧ Issued w.hs h (.key k) ∧ Sim R fr' ⟨w.v, issue w.hs h (.key k)⟩ := by
  unfold Front.keyGet
  rw [if_pos ((identityOf_iff _ _).2 hk)]
  cases e : fr.keyNamed k with
  | some q =>
    obtain ⟨hq, rfl⟩ := (hs.keyNamed_iff k q).1 e
    refine ⟨q.h, fr, rfl, hs.issuedKey (hs.keyH q hq), ?_⟩
    rw [issue_same (hs.keyH q hq)]
    exact hs
  | none =>
    obtain ⟨bits, hb⟩ := Option.isSome_iff_exists.1 hv
    have hg := ((F.rep hs.rep).bits_isSome k).2 hb
    simp only [hg]
    obtain ⟨fr', h1, h2, h3, _⟩ := hs.newKey F hb
      (fun q hq en => by
        have := (hs.keyNamed_iff k q).2 ⟨hq, en⟩
        rw [e] at this; cases this)
      (fun i hi => ⟨o, ho, keyName_inj hk hi⟩)
    exact ⟨_, fr', h1, h3, h2⟩

theorem keyGet_refused (F : Faithful b R A) (hs : Sim R fr w) {o : IdObj} {k : PName} (hk : KeyName o.name k)
    (hv : w.v.key k = none) : fr.keyGet b o k = (.refused, fr) := by
  unfold Front.keyGet
  rw [if_pos ((identityOf_iff _ _).2 hk)]
  cases e : fr.keyNamed k with
  | some q =>
    obtain ⟨hq, rfl⟩ := (hs.keyNamed_iff k q).1 e
    rw [(hs.keyOk q hq).bits] at hv; cases hv
  | none =>
    have := (F.rep hs.rep).ans.getKeyBits k
    rw [hv] at this
    simp only [this]; rfl

theorem keyGet_invalid {o : IdObj} {k : PName} (hk : ¬ KeyName o.name k) : fr.keyGet b o k = (.invalid, fr) := by
  unfold Front.keyGet
  rw [if_neg (fun h => hk ((identityOf_iff _ _).1 h))]

theorem keyAdd_invalid {o : IdObj} {k : PName} {bits : Bytes} (hk : ¬ KeyName o.name k) : fr.keyAdd b o bits k = (.invalid, fr) := by
  unfold Front.keyAdd
  rw [if_neg (fun h => hk ((identityOf_iff _ _).1 h))]

theorem setDefaultKeyObj_ok (F : Faithful b R A) (hs : Sim R fr w) {h kh : Nat} {i k : PName} (hi : w.hs h = .alive (.ident i))
    (hkh : w.hs kh = .alive (.key k)) (hk : KeyName i k) :
    ∃ fr', fr.setDefaultKeyObj b h kh k = (.key kh, fr') ∧ Sim R fr' ⟨{ w.v with defKey := upd w.v.defKey i (some k) }, w.hs⟩ := by
  obtain ⟨o, ho, rfl, rfl⟩ := hs.idAll h i hi
  obtain ⟨q, hq, rfl, rfl⟩ := hs.keyAll kh k hkh
  have hkey := (hs.keyOk q hq).bits
  obtain ⟨r1, r2⟩ := F.step (op := .setDefaultKey o.name q.name) hs.rep hk (fun k e => by cases e)
  simp only [next, hkey, Option.isSome_some, if_true] at r1 r2
  unfold Front.setDefaultKeyObj
  simp only [(hs.ident?_iff o.h o).2 ⟨ho, rfl⟩, hs.keysOk F (hs.idOk o ho), if_true]
  have r1' : (b.setDefaultKey fr.db o.name q.name).1 = .ok () := r1
  refine ⟨_, Prod.ext ?_ rfl, ?_⟩
  · show (b.setDefaultKey fr.db o.name q.name).1.out _ = _
    rw [r1']; rfl
  · let f : IdObj → IdObj := fun p => if p.h = o.h then { p with dkey := some q.h } else p
    refine hs.edit f (fun q => q) (fun q => by simp only [f]; split <;> exact ⟨rfl, rfl⟩) (fun q => ⟨rfl, rfl⟩) rfl (by simp [Front.updIdent]) rfl r2
      hs.names ?_ ?_ ?_ hs.dident ?_ hs.didentLt
    · intro p hp
      simp only [f]
      split
      · exact (hs.idOk p hp)
      · exact (hs.idOk p hp)
    · intro p hp
      exact (hs.keyOk p hp).mono (F.rep hs.rep).coh rfl (fun _ _ => rfl) (fun _ _ => rfl)
    · intro p hp l hl e
      simp only [f] at e
      split at e
      · rename_i en
        have : p = o := hs.idEq hp ho en
        subst this
        injection e with e
        have : q = l := hs.keyEq hq hl e
        subst this
        simp [upd]
      · rename_i en
        have := hs.dkey p hp l hl e
        have hne : p.name ≠ o.name := fun e' => en (by rw [hs.idU p hp o ho e'])
        simp [upd, hne, this]
    · intro p hp x e
      simp only [f] at e
      split at e
      · injection e with e; subst e; exact hs.lt hkh
      · exact hs.dkeyLt p hp x e

theorem find_upd {l : List KeyObj} {h : Nat} {f : KeyObj → KeyObj} (hf : ∀ o, (f o).h = o.h) {o : KeyObj}
    (e : l.find? (fun o => decide (o.h = h)) = some o) :
    (l.map (fun o => if o.h = h then f o else o)).find? (fun o => decide (o.h = h)) = some (f o) := by
  induction l with
  | nil => cases e
  | cons a l ih =>
    rw [List.find?_cons] at e
    rw [List.map_cons, List.find?_cons]
    by_cases ha : a.h = h
    · simp only [ha, decide_true, if_true] at e ⊢
      injection e with e; subst e
      simp [hf, ha]
    · simp only [ha, decide_false, if_false] at e ⊢
      exact ih e

theorem certAdd_rep (F : Faithful b R A) (hs : Sim R fr w) {c : Crt} {k : PName} (hc : CertName k c.name) :
    R (b.addCertificate fr.db c) (w.v.addCert c) :=
  (F.step (op := .addCertificate c) hs.rep ⟨k, hc⟩ (fun k e => by cases e)).2

/-- Adding a certificate with the public key of the key leaves keys as they are. -/
theorem addCert_key (F : Faithful b R A) (hs : Sim R fr w) {o : KeyObj} (ho : o ∈ fr.keys) {c : Crt} (hc : CertName o.name c.name)
    (hb : o.bits = c.pub) : (w.v.addCert c).key = w.v.key := by
  have hkn := crt_keyName hc
  have := (hs.keyOk o ho).bits
  funext x
  simp only [View.addCert, View.addKey, upd, hkn]
  split
  · rename_i e; rw [e, this, hb]
  · rfl

theorem addCert_ident (F : Faithful b R A) (hs : Sim R fr w) {o : KeyObj} (ho : o ∈ fr.keys) {c : Crt} (hc : CertName o.name c.name) :
    (w.v.addCert c).ident = w.v.ident := by
  obtain ⟨i, hi, he⟩ := (F.rep hs.rep).coh.parent o.name (by rw [(hs.keyOk o ho).bits]; rfl)
  have : c.identity = i := keyName_inj (crt_identity hc) hi
  funext x
  simp only [View.addCert, View.addKey, View.addIdent, upd, this]
  split
  · rename_i e; rw [e, he]
  · rfl

theorem certNames_add {v : View} {o : KeyObj} (ho : KeyOk v o) {c : Crt} (hc : CertName o.name c.name) (x : PName) :
    x ∈ insName c.name o.certNames ↔ ((v.addCert c).cert x).isSome ∧ CertName o.name x := by
  simp only [insName, View.addCert, upd]
  have hb := ho.names x
  by_cases hx : x = c.name
  · subst hx
    simp only [if_true, Option.isSome_some, true_and]
    constructor
    · intro _; exact hc
    · intro _; split
      · assumption
      · exact List.mem_cons_self ..
  · simp only [hx, if_false]
    rw [← hb]
    split
    · rfl
    · simp [hx]

/-- The objects after adding a certificate, where `g` changes the object of the key. -/
theorem certEdit (F : Faithful b R A) (hs : Sim R fr w) {o : KeyObj} (ho : o ∈ fr.keys) {c : Crt} (hc : CertName o.name c.name)
    (hb : o.bits = c.pub) {v' : View} {db' : σ} (g : KeyObj → KeyObj)
    (hg : ∀ q, (g q).h = q.h ∧ (g q).name = q.name)
    (rep : R db' v') (e1 : v'.ident = (w.v.addCert c).ident) (e2 : v'.key = (w.v.addCert c).key)
    (e3 : v'.cert = (w.v.addCert c).cert) (e4 : v'.defKey = (w.v.addCert c).defKey) (e5 : v'.defIdent = (w.v.addCert c).defIdent)
    (e6 : ∀ l, l ≠ o.name → v'.defCert l = w.v.defCert l) (hok : KeyOk v' (g o)) :
    Sim R { fr.updKey o.h g with db := db' } ⟨v', w.hs⟩ := by
  let g' : KeyObj → KeyObj := fun p => if p.h = o.h then g p else p
  have hkn := crt_keyName hc
  refine hs.edit (fun q => q) g' (fun q => ⟨rfl, rfl⟩) (fun q => by simp only [g']; split; exact hg q; exact ⟨rfl, rfl⟩) (by simp [Front.updKey]) rfl rfl rep
      (fun n => by rw [e1, addCert_ident F hs ho hc]; exact hs.names n) ?_ ?_ ?_ ?_ hs.dkeyLt hs.didentLt
  · intro p hp
    exact (hs.idOk p hp).mono (by rw [e1, addCert_ident F hs ho hc]; exact (hs.idOk p hp).1)
      (fun l _ => by rw [e2, addCert_key F hs ho hc hb])
  · intro p hp
    simp only [g']
    split
    · rename_i en
      have : p = o := hs.keyEq hp ho en
      subst this
      exact hok
    · rename_i en
      have hne : p.name ≠ o.name := fun e' => en (by rw [hs.keyU p hp o ho e'])
      refine (hs.keyOk p hp).mono (F.rep hs.rep).coh (by rw [e2, addCert_key F hs ho hc hb]) (fun x hx => ?_) (fun _ _ => e6 _ hne)
      rw [e3]
      simp only [View.addCert, upd]
      rw [if_neg]
      rintro rfl
      exact hne (certName_inj hx hc)
  · intro p hp l hl e
    have := hs.dkey p hp l hl e
    rw [e4]
    simp only [View.addCert, View.addKey, upd]
    split
    · rename_i en; rw [← en, this]; rfl
    · exact this
  · intro p hp e
    have := hs.dident p hp e
    rw [e5]
    simp [View.addCert, View.addKey, View.addIdent, this, orElse]

theorem certAdd_ok (F : Faithful b R A) (hs : Sim R fr w) {o : KeyObj} (ho : o ∈ fr.keys) {c : Crt} (hc : CertName o.name c.name)
    (hb : o.bits = c.pub) (hd : w.v.defCert o.name = some c.name → w.v.cert c.name = some c) :
    ∃ fr', fr.certAdd b o c = (.ok (), fr') ∧ Sim R fr' ⟨w.v.addCert c, w.hs⟩ := by
  have hkn := crt_keyName hc
  unfold Front.certAdd
  rw [if_pos hkn.symm]
  refine ⟨_, rfl, ?_⟩
  have hok := hs.keyOk o ho
  refine hs.certEdit F ho hc hb (v' := w.v.addCert c) (fun q => { q with certNames := insName c.name q.certNames, certs := put c.name c q.certs })
    (fun q => ⟨rfl, rfl⟩) (hs.certAdd_rep F hc) rfl rfl rfl rfl rfl (fun l hl => ?_) ⟨?_, ?_, ?_, ?_⟩
  · simp [View.addCert, upd, hkn, hl]
  · rw [addCert_key F hs ho hc hb]; exact hok.bits
  · exact certNames_add hok hc
  · intro x y e
    rw [get_put] at e
    simp only [View.addCert, upd]
    split at e
    · rename_i ex
      subst ex
      rw [if_pos rfl]; exact ⟨e, hc⟩
    · rename_i ex
      rw [if_neg ex]; exact hok.certs x y e
  · intro x e
    have := hok.dcert x e
    simp only [View.addCert, upd, hkn, if_true, this.1]
    refine ⟨rfl, ?_⟩
    split
    · rename_i ex
      rw [← hd (by rw [this.1, ex]), ← ex, this.2]
    · exact this.2

end Sim
end Ndn.Pib
