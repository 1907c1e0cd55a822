import Verif.Pib.Lemmas
namespace Ndn.Pib
open Ndn.Name Spec

theorem get_del {β : Type} (k x : PName) (m : List (PName × β)) : get x (del k m) = if x = k then none else get x m := by
  induction m with
  | nil => simp [del, get]
  | cons p m ih =>
    unfold del at ih ⊢
    rw [List.filter_cons]
    by_cases hp : p.1 = k
    · simp only [hp, ne_eq, not_true_eq_false, decide_false, Bool.false_eq_true, if_false]
      rw [ih]
      by_cases hx : x = k
      · simp [hx]
      · simp only [hx, if_false, get, hp, if_neg (Ne.symm hx)]
    · simp only [ne_eq, hp, not_false_eq_true, decide_true, if_true, get, ih]
      by_cases hx : x = k
      · subst hx; simp [hp]
      · simp [hx]

theorem get_put {β : Type} (k x : PName) (v : β) (m : List (PName × β)) :
    get x (put k v m) = if x = k then some v else get x m := by
  unfold put
  simp only [get, get_del]
  by_cases hx : x = k
  · subst hx; simp
  · simp [hx, Ne.symm hx]

theorem get_isSome {β : Type} (k : PName) (m : List (PName × β)) : (get k m).isSome ↔ k ∈ m.map Prod.fst := by
  induction m with
  | nil => simp [get]
  | cons p m ih =>
    simp only [get, List.map_cons, List.mem_cons]
    split
    · rename_i h; simp [h]
    · rename_i h; simp [ih, Ne.symm h]

theorem dropDefault_ne {d : Option PName} {n : PName} (h : d ≠ some n) : dropDefault d n = d := if_neg h

namespace Mem

/-- What a back end in memory answers. -/
def view (s : Mem) : View :=
  ⟨fun n => decide (n ∈ s.idents), s.defIdent, fun k => get k s.keys, fun i => get i s.defKeys,
   fun c => get c s.certs, fun k => get k s.defCerts⟩

theorem view_addIdentity (s : Mem) (n : PName) : (s.addIdentity n).view = s.view.addIdent n := by
  ext x
  · simp only [view, addIdentity, View.addIdent, upd]
    by_cases h : x = n
    · subst h
      simp only [if_true]
      split <;> simp_all
    · simp only [h, if_false]
      split
      · rfl
      · simp [h]
  · simp only [view, addIdentity, View.addIdent, orElse]
    cases s.defIdent <;> rfl
  all_goals rfl

theorem view_addKey (s : Mem) (i k : PName) (bits : Bytes) : (s.addKey i k bits).view = s.view.addKey i k bits := by
  have h := view_addIdentity s i
  have h1 := congrArg View.ident h
  have h2 := congrArg View.defIdent h
  ext x
  · exact congrFun h1 x
  · exact iff_of_eq (congrArg (· = some x) h2)
  · simp only [view, addKey, View.addKey, upd, get_put]; rfl
  · simp only [view, addKey, View.addKey, upd]
    have e : (s.addIdentity i).defKeys = s.defKeys := rfl
    rw [e]
    split
    · rename_i hs
      by_cases hx : x = i
      · subst hx
        obtain ⟨d, hd⟩ := Option.isSome_iff_exists.1 hs
        simp [hd, orElse]
      · simp [hx]
    · rename_i hs
      rw [get_put]
      by_cases hx : x = i
      · subst hx
        simp only [Bool.not_eq_true, Option.isSome_eq_false_iff, Option.isNone_iff_eq_none] at hs
        simp [hs, orElse]
      · simp [hx]
  all_goals rfl

theorem view_addCertificate (s : Mem) (c : Crt) : (s.addCertificate c).view = s.view.addCert c := by
  have h := view_addKey s c.identity c.keyName c.pub
  have h1 := congrArg View.ident h
  have h2 := congrArg View.defIdent h
  have h3 := congrArg View.key h
  have h4 := congrArg View.defKey h
  ext x
  · exact congrFun h1 x
  · exact iff_of_eq (congrArg (· = some x) h2)
  · exact iff_of_eq (congrArg (fun f => f x = some _) h3)
  · exact iff_of_eq (congrArg (fun f => f x = some _) h4)
  · simp only [view, addCertificate, View.addCert, upd, get_put]; rfl
  · simp only [view, addCertificate, View.addCert, upd]
    have e : (s.addKey c.identity c.keyName c.pub).defCerts = s.defCerts := rfl
    rw [e]
    split
    · rename_i hs
      by_cases hx : x = c.keyName
      · subst hx
        obtain ⟨d, hd⟩ := Option.isSome_iff_exists.1 hs
        simp [hd, orElse]
      · simp [hx]
    · rename_i hs
      rw [get_put]
      by_cases hx : x = c.keyName
      · subst hx
        simp only [Bool.not_eq_true, Option.isSome_eq_false_iff, Option.isNone_iff_eq_none] at hs
        simp [hs, orElse]
      · simp [hx]

theorem view_removeCertificate {s : Mem} (hd : ∀ k c, get k s.defCerts = some c → CertName k c) {c k : PName} (hc : CertName k c) :
    (s.removeCertificate c).1 = .ok () ∧ (s.removeCertificate c).2.view = s.view.removeCert c := by
  have hk := (keyOf_iff _ _).2 hc
  unfold removeCertificate
  simp only [hk]
  split
  · rename_i h
    refine ⟨rfl, ?_⟩
    ext x : 2
    any_goals rfl
    · simp only [view, View.removeCert, upd, get_del]
    · simp only [view, View.removeCert, get_del]
      by_cases hx : x = k
      · subst hx; simp [h, dropDefault]
      · rw [if_neg hx]
        refine (dropDefault_ne fun h' => ?_).symm
        exact hx (certName_inj (hd _ _ h') hc)
  · rename_i h
    refine ⟨rfl, ?_⟩
    ext x : 2
    any_goals rfl
    · simp only [view, View.removeCert, upd, get_del]
    · simp only [view, View.removeCert]
      refine (dropDefault_ne fun h' => ?_).symm
      rw [certName_inj (hd _ _ h') hc] at h'
      exact h h'

theorem each_removeCertificate {k : PName} : ∀ (cs : List PName) (s : Mem), (∀ k c, get k s.defCerts = some c → CertName k c) →
    (∀ c ∈ cs, CertName k c) →
    (each removeCertificate cs s).1 = .ok () ∧
    (each removeCertificate cs s).2.view =
      { s.view with
        cert := fun c => if c ∈ cs then none else s.view.cert c
        defCert := fun l => (s.view.defCert l).bind (fun c => if c ∈ cs then none else some c) } := by
  intro cs
  induction cs with
  | nil =>
    intro s _ _
    refine ⟨rfl, ?_⟩
    ext x <;> simp [each]
  | cons c cs ih =>
    intro s hd hc
    have h1 := view_removeCertificate hd (hc c List.mem_cons_self)
    generalize hr : s.removeCertificate c = r at h1
    obtain ⟨r1, s'⟩ := r
    simp only at h1
    obtain ⟨rfl, hv⟩ := h1
    simp only [each, hr]
    have hd' : ∀ k c, get k s'.defCerts = some c → CertName k c := by
      intro l d h
      have e : s'.view.defCert l = get l s'.defCerts := rfl
      rw [← e, hv] at h
      simp only [View.removeCert, dropDefault_some] at h
      exact hd _ _ h.1
    have h2 := ih s' hd' (fun d hdm => hc d (List.mem_cons_of_mem _ hdm))
    refine ⟨h2.1, h2.2.trans ?_⟩
    rw [hv]
    ext x : 2
    any_goals rfl
    · simp only [View.removeCert, upd, List.mem_cons]
      by_cases hx : x = c
      · simp [hx]
      · simp [hx]
    · simp only [View.removeCert, List.mem_cons]
      cases hdx : s.view.defCert x with
      | none => simp [dropDefault]
      | some d =>
        by_cases hx : d = c
        · simp [dropDefault, hx]
        · simp [dropDefault, hx]

theorem certs_list {s : Mem} (hv : ∀ c, (get c s.certs).isSome → ∃ k, CertName k c) (k : PName) :
    ∃ l, s.getCertificatesOfKey k = .ok l ∧ ∀ c, c ∈ l ↔ (get c s.certs).isSome ∧ CertName k c := by
  unfold getCertificatesOfKey
  rw [if_pos]
  · refine ⟨_, rfl, fun c => ?_⟩
    rw [get_isSome]
    simp only [List.mem_map, List.mem_filter, decide_eq_true_eq, keyOf_iff]
    constructor
    · rintro ⟨p, ⟨hp, hc⟩, rfl⟩; exact ⟨⟨p, hp, rfl⟩, hc⟩
    · rintro ⟨⟨p, hp, rfl⟩, hc⟩; exact ⟨p, ⟨hp, hc⟩, rfl⟩
  · rw [List.all_eq_true]
    intro p hp
    rw [validCert_iff]
    exact hv p.1 ((get_isSome _ _).2 (List.mem_map_of_mem hp))

theorem keys_list {s : Mem} (hv : ∀ k, (get k s.keys).isSome → ∃ i, KeyName i k) (i : PName) :
    ∃ l, s.getKeysOfIdentity i = .ok l ∧ ∀ k, k ∈ l ↔ (get k s.keys).isSome ∧ KeyName i k := by
  unfold getKeysOfIdentity
  rw [if_pos]
  · refine ⟨_, rfl, fun c => ?_⟩
    rw [get_isSome]
    simp only [List.mem_map, List.mem_filter, decide_eq_true_eq, identityOf_iff]
    constructor
    · rintro ⟨p, ⟨hp, hc⟩, rfl⟩; exact ⟨⟨p, hp, rfl⟩, hc⟩
    · rintro ⟨⟨p, hp, rfl⟩, hc⟩; exact ⟨p, ⟨hp, hc⟩, rfl⟩
  · rw [List.all_eq_true]
    intro p hp
    rw [validKey_iff]
    exact hv p.1 ((get_isSome _ _).2 (List.mem_map_of_mem hp))

/-- The part of coherence that holds during the removal of an identity. -/
structure Pre (v : View) : Prop where
  dk : ∀ i k, v.defKey i = some k → KeyName i k
  dc : ∀ k c, v.defCert k = some c → (v.cert c).isSome ∧ CertName k c
  cc : ∀ c, (v.cert c).isSome → ∃ k, CertName k c

/-- What removing a key does: as specified, except that the identity is left without a default key. -/
def gone (v : View) (i k : PName) : View := { v.removeKey k with defKey := upd v.defKey i none }

theorem view_removeKey {s : Mem} (hp : Pre s.view) {i k : PName} (hk : KeyName i k) :
    (s.removeKey k).1 = .ok () ∧ (s.removeKey k).2.view = gone s.view i k := by
  unfold removeKey
  simp only [(identityOf_iff _ _).2 hk]
  generalize hs : ({ s with keys := del k s.keys, defKeys := del i s.defKeys } : Mem) = s1
  have hs1 : s1.certs = s.certs ∧ s1.defCerts = s.defCerts := by subst hs; exact ⟨rfl, rfl⟩
  obtain ⟨l, hl, hm⟩ := certs_list (s := s1) (by rw [hs1.1]; exact hp.cc) k
  simp only [hl]
  have hd1 : ∀ k c, get k s1.defCerts = some c → CertName k c := by
    rw [hs1.2]; exact fun k c h => (hp.dc k c h).2
  have h := each_removeCertificate (k := k) l s1 hd1 (fun c hc => ((hm c).1 hc).2)
  refine ⟨h.1, h.2.trans ?_⟩
  rw [hs1.1] at hm
  subst hs
  ext x : 2
  any_goals rfl
  · simp only [view, gone, View.removeKey, upd, get_del]
  · simp only [view, gone, upd, get_del]
  · simp only [view, gone, View.removeKey]
    by_cases hc : CertName k x
    · rw [if_pos ((isCertOf_iff _ _).2 hc)]
      split
      · rfl
      · rename_i hx
        cases hg : get x s.certs with
        | none => rfl
        | some y => exact absurd ((hm x).2 ⟨by simp [hg], hc⟩) hx
    · rw [if_neg (fun h => hc ((isCertOf_iff _ _).1 h)), if_neg (fun h => hc ((hm x).1 h).2)]
  · simp only [view, gone, View.removeKey, upd]
    cases hd : get x s.defCerts with
    | none => simp
    | some c =>
      have hx := hp.dc _ _ hd
      simp only [Option.bind_some]
      by_cases hxk : x = k
      · subst hxk
        rw [if_pos rfl, if_pos ((hm c).2 hx)]
      · rw [if_neg hxk, if_neg]
        intro hc
        exact hxk (certName_inj hx.2 ((hm c).1 hc).2)

theorem pre_gone {v : View} (hp : Pre v) {i k : PName} (hk : KeyName i k) : Pre (gone v i k) := by
  constructor
  · intro j l h
    simp only [gone, upd] at h
    split at h
    · cases h
    · exact hp.dk _ _ h
  · intro l c h
    simp only [gone, View.removeKey, upd] at h ⊢
    split at h
    · cases h
    · rename_i hl
      have := hp.dc _ _ h
      refine ⟨?_, this.2⟩
      rw [if_neg]
      · exact this.1
      · rw [isCertOf_iff]; exact fun h' => hl (certName_inj this.2 h')
  · intro c h
    simp only [gone, View.removeKey] at h
    split at h
    · cases h
    · exact hp.cc c h

theorem each_removeKey {i : PName} : ∀ (ks : List PName) (s : Mem), Pre s.view → (∀ k ∈ ks, KeyName i k) →
    (each removeKey ks s).1 = .ok () ∧
    (each removeKey ks s).2.view =
      { s.view with
        key := fun k => if k ∈ ks then none else s.view.key k
        defKey := if ks = [] then s.view.defKey else upd s.view.defKey i none
        cert := fun c => if ∃ k ∈ ks, isCertOf k c = true then none else s.view.cert c
        defCert := fun k => if k ∈ ks then none else s.view.defCert k } := by
  intro ks
  induction ks with
  | nil =>
    intro s _ _
    refine ⟨rfl, ?_⟩
    ext x <;> simp [each]
  | cons k ks ih =>
    intro s hp hk
    have hk0 := hk k List.mem_cons_self
    have h1 := view_removeKey hp hk0
    generalize hr : s.removeKey k = r at h1
    obtain ⟨r1, s'⟩ := r
    simp only at h1
    obtain ⟨rfl, hv⟩ := h1
    simp only [each, hr]
    have h2 := ih s' (hv ▸ pre_gone hp hk0) (fun d hdm => hk d (List.mem_cons_of_mem _ hdm))
    refine ⟨h2.1, h2.2.trans ?_⟩
    rw [hv]
    ext x : 2
    any_goals rfl
    · simp only [gone, View.removeKey, upd, List.mem_cons]
      by_cases hx : x = k
      · simp [hx]
      · simp [hx]
    · simp only [gone, reduceCtorEq, if_false, upd]
      split
      · rfl
      · simp only [upd]
        split <;> rfl
    · simp only [gone, View.removeKey, List.mem_cons, exists_eq_or_imp]
      by_cases h : isCertOf k x = true
      · simp [h]
      · simp [h]
    · simp only [gone, View.removeKey, upd, List.mem_cons]
      by_cases hx : x = k
      · simp [hx]
      · simp [hx]

theorem view_removeIdentity {s : Mem} (hv : Coherent s.view) (i : PName) :
    (s.removeIdentity i).1 = .ok () ∧ (s.removeIdentity i).2.view = s.view.removeIdent i := by
  unfold removeIdentity
  generalize hs : ({ s with
    idents := s.idents.filter (fun m => decide (m ≠ i))
    defIdent := if s.defIdent = some i then none else s.defIdent } : Mem) = s1
  have hk1 : s1.keys = s.keys := by subst hs; rfl
  have hpre : Pre s1.view := by
    subst hs
    exact ⟨fun j k h => (hv.key j k h).2, fun k c h => hv.cert k c h, fun c h => (hv.issuer c h).imp fun k h => h.1⟩
  obtain ⟨l, hl, hm⟩ := keys_list (s := s1) (by rw [hk1]; exact fun k h => (hv.parent k h).imp fun k h => h.1) i
  simp only [hl]
  have h := each_removeKey (i := i) l s1 hpre (fun k hk => ((hm k).1 hk).2)
  refine ⟨h.1, h.2.trans ?_⟩
  rw [hk1] at hm
  subst hs
  ext x : 2
  · simp only [view, View.removeIdent, upd]
    by_cases hx : x = i <;> simp [hx]
  · rfl
  · simp only [view, View.removeIdent]
    by_cases hx : KeyName i x
    · rw [if_pos ((isKeyOf_iff _ _).2 hx)]
      split
      · rfl
      · rename_i hn
        cases hg : get x s.keys with
        | none => rfl
        | some y => exact absurd ((hm x).2 ⟨by simp [hg], hx⟩) hn
    · rw [if_neg (fun h => hx ((isKeyOf_iff _ _).1 h)), if_neg (fun h => hx ((hm x).1 h).2)]
  · simp only [view, View.removeIdent]
    split
    · rename_i hn
      simp only [upd]
      split
      · rename_i hx
        subst hx
        cases hg : get x s.defKeys with
        | none => rfl
        | some y =>
          have := hv.key x y hg
          have hy := (hm y).2 this
          rw [hn] at hy; cases hy
      · rfl
    · rfl
  · simp only [view, View.removeIdent]
    by_cases hx : isCertOfIdent i x = true
    · rw [if_pos hx]
      split
      · rfl
      · rename_i hn
        cases hg : get x s.certs with
        | none => rfl
        | some y =>
          obtain ⟨k, hk, hki⟩ := hv.issuer x (by simp [view, hg])
          obtain ⟨k', hk', hi⟩ := (isCertOfIdent_iff _ _).1 hx
          rw [certName_inj hk' hk] at hi
          exact absurd ⟨k, (hm k).2 ⟨hki, hi⟩, (isCertOf_iff _ _).2 hk⟩ hn
    · rw [if_neg hx, if_neg]
      rintro ⟨k, hk, hc⟩
      exact hx ((isCertOfIdent_iff _ _).2 ⟨k, (isCertOf_iff _ _).1 hc, ((hm k).1 hk).2⟩)
  · simp only [view, View.removeIdent]
    by_cases hx : KeyName i x
    · rw [if_pos ((isKeyOf_iff _ _).2 hx)]
      split
      · rfl
      · rename_i hn
        cases hg : get x s.defCerts with
        | none => rfl
        | some y =>
          have hy := hv.cert x y hg
          obtain ⟨k, hk, hki⟩ := hv.issuer y hy.1
          rw [certName_inj hk hy.2] at hki
          exact absurd ((hm x).2 ⟨hki, hx⟩) hn
    · rw [if_neg (fun h => hx ((isKeyOf_iff _ _).1 h)), if_neg (fun h => hx ((hm x).1 h).2)]

/-- Every step is as specified, but removing a key takes the identity's default key. -/
def memNext (v : View) : Op → Res Unit × View
  | .removeKey k => (.ok (), gone v ((identityOf k).getD []) k)
  | op => next v op

theorem step_view {s : Mem} (hv : Coherent s.view) {op : Op} (hp : Proper op) :
    (step memory s op).1 = (memNext s.view op).1 ∧ (step memory s op).2.view = (memNext s.view op).2 := by
  cases op with
  | addIdentity i => exact ⟨rfl, view_addIdentity s i⟩
  | removeIdentity i => exact view_removeIdentity hv i
  | setDefaultIdentity i =>
    by_cases h : i ∈ s.idents <;> simp [step, memory, setDefaultIdentity, hasIdentity, memNext, next, view, h]
  | addKey i k bits => exact ⟨rfl, view_addKey s i k bits⟩
  | removeKey k =>
    obtain ⟨i, hi⟩ := hp
    have := view_removeKey (s := s) ⟨fun j k h => (hv.key j k h).2, fun k c h => hv.cert k c h, fun c h => (hv.issuer c h).imp fun k h => h.1⟩ hi
    simp only [memNext, (identityOf_iff _ _).2 hi]
    exact this
  | setDefaultKey i k =>
    by_cases h : (get k s.keys).isSome
    · simp only [step, memory, setDefaultKey, hasKey, memNext, next, view, h, if_true, true_and]
      ext x : 2
      any_goals rfl
      simp only [upd, get_put]
    · simp [step, memory, setDefaultKey, hasKey, memNext, next, view, h]
  | addCertificate c => exact ⟨rfl, view_addCertificate s c⟩
  | removeCertificate c => exact view_removeCertificate (fun k c h => (hv.cert k c h).2) hp.choose_spec
  | setDefaultCertificate k c =>
    by_cases h : (get c s.certs).isSome
    · simp only [step, memory, setDefaultCertificate, hasCertificate, memNext, next, view, h, if_true, true_and]
      ext x : 2
      any_goals rfl
      simp only [upd, get_put]
    · simp [step, memory, setDefaultCertificate, hasCertificate, memNext, next, view, h]
  | clear => exact ⟨rfl, by ext x <;> simp [step, memory, clear, Mem.init, view, memNext, next, View.empty, get]⟩

theorem coherent_gone {v : View} (hv : Coherent v) {i k : PName} (hk : KeyName i k) : Coherent (gone v i k) := by
  have h := coherent_removeKey hv k
  refine ⟨h.ident, fun j l hj => ?_, h.cert, h.parent, h.issuer, h.named⟩
  simp only [gone, upd] at hj
  split at hj
  · cases hj
  · rename_i hji
    have := hv.key _ _ hj
    refine ⟨?_, this.2⟩
    simp only [gone, View.removeKey, upd]
    rw [if_neg]
    · exact this.1
    · intro e; subst e; exact hji (keyName_inj this.2 hk)

theorem coherent_memNext {v : View} (hv : Coherent v) {op : Op} (hp : Proper op) : Coherent (memNext v op).2 := by
  cases op with
  | removeKey k =>
    obtain ⟨i, hi⟩ := hp
    simp only [memNext, (identityOf_iff _ _).2 hi]
    exact coherent_gone hv hi
  | _ => exact coherent_next hv hp

/-- The same, where the key removed is the default or there is none. -/
theorem gone_eq {v : View} (hv : Coherent v) {i k : PName} (hk : KeyName i k) (h : v.defKey i = none ∨ v.defKey i = some k) :
    gone v i k = v.removeKey k := by
  ext x : 2
  any_goals rfl
  simp only [gone, View.removeKey, upd]
  split
  · rename_i e
    subst e
    rcases h with h | h <;> simp [h, dropDefault]
  · rename_i hx
    refine (dropDefault_ne fun h' => hx ?_).symm
    exact keyName_inj (hv.key _ _ h').2 hk

theorem answers {s : Mem} (hv : Coherent s.view) : Answers memory s s.view where
  hasIdentity := fun i => rfl
  getIdentities := fun i => by simp [memory, view]
  getDefaultIdentity := rfl
  hasKey := fun k => rfl
  getKeyBits := fun k => rfl
  getKeysOfIdentity := fun i => keys_list (fun k h => (hv.parent k h).imp fun k h => h.1) i
  getDefaultKey := fun i => rfl
  hasCertificate := fun c => rfl
  getCertificate := fun c => rfl
  getCertificatesOfKey := fun k => certs_list (fun c h => (hv.issuer c h).imp fun k h => h.1) k
  getDefaultCertificate := fun k => by
    simp only [memory, getDefaultCertificate, view]
    cases h : get k s.defCerts with
    | none => rfl
    | some c =>
      obtain ⟨x, hx⟩ := Option.isSome_iff_exists.1 (hv.cert k c h).1
      have hx' : get c s.certs = some x := hx
      simp [hx']

end Mem
end Ndn.Pib
