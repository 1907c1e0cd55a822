import Verif.Ndnsec.Lemmas
namespace Ndn.Ndnsec
open Ndn.Name Ndn.Tlv Ndn.Block Ndn.Packet Ndn.Pib Ndn.Pib.Spec Ndn.KeyChain Ndn.KeyChain.Spec Ndn.Ndnsec.Spec

variable {σ K α β : Type} {b : Backend σ} {R : σ → View → Prop}
  {T : View → List (PName × Option K) → Prop} {s : St σ K} {w : World} {C : Crypto K}

abbrev storeOf (w : World) (t : Tpm K) : Store K := ⟨w.v, t.priv⟩

theorem store_same {w' : World} (t : Tpm K) (h : Same w w') : storeOf w' t = storeOf w t := by unfold storeOf; rw [h.v]

/-- The conclusion for a command. -/
def Done (C : Crypto K) (w : World) (t : Tpm K) (cmd : Cmd K) (r : Except Err (Nat × Shown)) (w' : World) (t' : Tpm K) : Prop :=
  CmdStep C (storeOf w t) cmd (exitOf r) (storeOf w' t') ∧ Inv C w' t'

theorem ex_end {m : KM σ K α} {a : β} {Q : Except Err β → World → Tpm K → Prop}
    (h : Ex R T s m (fun r w' t' => Q (r.map (fun _ => a)) w' t')) : Ex R T s (m >>= fun _ => pure a) Q := by
  refine ex_bind h ?_ ?_
  · intro x w1 s1 hs1 hq; exact ex_pure hs1 _ hq
  · intro e w1 t1 hq; exact hq

theorem bad_err {e : Err} (h : e = .pib ∨ e = .invalid) : Bad (exitOf (.error e)) := by rcases h with rfl | rfl <;> rfl

theorem Looked.inv {w' : World} {s' : St σ K} (l : Looked w w' s s') (inv : Inv C w s.tpm) : Inv C w' s'.tpm := inv.same l.same l.tpm

theorem alive_eq {h : Nat} {r r' : Ref} (h1 : w.hs h = .alive r) (h2 : w.hs h = .alive r') : r = r' := by
  rw [h1] at h2; injection h2

theorem key_eq {h : Nat} {k k' : PName} (h1 : w.hs h = .alive (.key k)) (h2 : w.hs h = .alive (.key k')) : k = k' := by
  have := alive_eq h1 h2; injection this

theorem ident_eq {h : Nat} {k k' : PName} (h1 : w.hs h = .alive (.ident k)) (h2 : w.hs h = .alive (.ident k')) : k = k' := by
  have := alive_eq h1 h2; injection this

variable (F : Faithful b R (fun _ _ => True)) (hs : Sim R s.pib w) (inv : Inv C w s.tpm)
include F hs inv

/-! ## delete -/

/-- Certificates other than identities. -/
theorem ex_deleteCert (n : PName) : Ex R (TT C) s (delete b false true n) (Done C w s.tpm (.delete false true n)) := by
  show Ex R (TT C) s (keyByCert b n >>= fun p => pibCert b (.getCert p.2 n) >>= fun x => onKeyHandle b p.2 (.removeCert p.2 x.name) >>= fun _ => pure (0, Shown.nothing)) _
  have no : ∀ e w1, w.v.cert n = none → Same w w1 → (e = .pib ∨ e = .invalid) → Done C w s.tpm (.delete false true n) (.error e) w1 s.tpm := by
    intro e w1 hn hsm he
    refine ⟨?_, inv.same hsm rfl⟩
    simp only [CmdStep]
    rw [if_neg (by simp), if_pos (by simp), if_neg (by rw [hn]; simp)]
    exact ⟨bad_err he, store_same _ hsm⟩
  refine exb_keyByCert F hs n inv.t (fun i k p w1 s1 hs1 l1 hi hc hk hp1 hp2 => ?_) no
  refine exb_getCert F hs1 hp2 hc (l1.ok inv.t) (fun c s2 hs2 ht2 hx => ?_) (fun hx => ?_)
  · have inv2 : Inv C w1 s2.tpm := by rw [ht2]; exact l1.inv inv
    have hcn : c.name = n := (F.rep hs2.rep).coh.named _ _ hx
    rw [hcn]
    have tt : ∀ out w', Step w1 (.removeCert p.2 n) out w' → out = .done ∧ w' = ⟨w1.v.removeCert n, w1.hs⟩ := by
      intro out w' hst
      simp only [Step, onKey, hp2, if_pos hc] at hst
      exact hst
    refine ex_end (ex_onKey F hs2 inv2 p.2 (.removeCert p.2 n) trivial (fun _ _ e => by cases e) (fun _ _ => trivial) ?_ ?_ ?_)
    · intro m out w' _ hst
      obtain ⟨-, rfl⟩ := tt out w' hst
      exact inv2.t.removeCert n
    · intro m out w' _ hst hinv
      obtain ⟨rfl, rfl⟩ := tt out w' hst
      refine ⟨?_, hinv⟩
      simp only [CmdStep]
      rw [if_neg (by simp), if_pos (by simp), if_pos (by rw [← l1.same.v, hx]; rfl)]
      refine ⟨rfl, ?_⟩
      show (⟨w1.v.removeCert n, s2.tpm.priv⟩ : Store K) = ⟨w.v.removeCert n, s.tpm.priv⟩
      rw [l1.same.v, ht2, l1.tpm]
    · intro hn
      rw [keyOfH_iff.mpr hp2] at hn; cases hn
  · rw [l1.tpm]; exact no _ w1 (by rw [← l1.same.v]; exact hx) l1.same (.inl rfl)

theorem ex_deleteKeyCmd (n : PName) : Ex R (TT C) s (delete b true false n) (Done C w s.tpm (.delete true false n)) := by
  show Ex R (TT C) s (keyByName b n >>= fun p => deleteKey b p.1 p.2 >>= fun _ => pure (0, Shown.nothing)) _
  refine exb_keyByName F hs n inv.t (fun i p w1 s1 hs1 l1 hi hk hp1 hp2 => ?_) (fun e w1 hn hsm he => ?_)
  · refine ex_end (ex_deleteKey F hs1 (l1.inv inv) p.1 p.2 (fun _ _ => trivial) ?_ ?_ ?_)
    · intro i' n' w' t' a1 a2 a3 a4 a5 a6
      have e1 := key_eq a2 hp2; subst e1
      refine ⟨?_, a6⟩
      simp only [CmdStep]
      rw [if_neg (by simp), if_neg (by simp), if_pos (by simp), if_pos hk]
      refine ⟨rfl, ?_⟩
      rw [a4, a5]
      show (⟨w1.v.removeKey n', _⟩ : Store K) = ⟨w.v.removeKey n', _⟩
      rw [l1.same.v]
      congr 1
      funext m
      simp only [Tpm.priv, upd]
      rw [get_del, l1.tpm]
    · intro _ hn; rw [keyOfH_iff.mpr hp2] at hn; cases hn
    · intro e _ hn; exact absurd hi (hn i n hp1 hp2)
  · refine ⟨?_, inv.same hsm rfl⟩
    simp only [CmdStep]
    rw [if_neg (by simp), if_neg (by simp), if_pos (by simp), if_neg (by rw [hn]; simp)]
    exact ⟨bad_err he, store_same _ hsm⟩

theorem ex_deleteIdentCmd (n : PName) : Ex R (fun _ _ => True) s (delete b false false n) (Done C w s.tpm (.delete false false n)) := by
  show Ex R _ s (pibIdent b (.getIdentity n) >>= fun h => deleteIdentity b h >>= fun _ => pure (0, Shown.nothing)) _
  refine exb_getIdentity F hs n trivial (fun h w1 s1 hs1 l1 hid hh => ?_) (fun hid => ?_)
  · refine ex_end (ex_deleteIdentity F hs1 (l1.inv inv) h ?_ ?_)
    · intro i w' t' a1 a2 a3 a4 a5
      have e1 := ident_eq a1 hh; subst e1
      refine ⟨?_, a5⟩
      simp only [CmdStep]
      rw [if_neg (by simp), if_neg (by simp), if_neg (by simp), if_pos hid]
      refine ⟨rfl, ?_⟩
      rw [a2]
      show (⟨w1.v.removeIdent i, _⟩ : Store K) = ⟨w.v.removeIdent i, _⟩
      rw [l1.same.v]
      congr 1
      funext m
      rw [l1.same.v] at a3 a4
      by_cases hx : KeyName i m ∧ (w.v.key m).isSome
      · exact (a3 m hx.1 hx.2).trans (if_pos hx).symm
      · refine ((a4 m hx).trans ?_).trans (if_neg hx).symm
        rw [l1.tpm]; rfl
    · intro hn; rw [identOf_iff.mpr hh] at hn; cases hn
  · refine ⟨?_, inv⟩
    simp only [CmdStep]
    rw [if_neg (by simp), if_neg (by simp), if_neg (by simp), if_neg (by rw [hid]; simp)]
    exact ⟨rfl, by first | rfl | trivial⟩

/-! ## set-default -/

omit F hs inv in
theorem upd_same {β : Type} {f : PName → β} {k : PName} {x : β} (h : f k = x) : upd f k x = f := by
  funext y
  simp only [upd]
  split
  · rename_i e; rw [e, h]
  · rfl

omit F hs inv in
theorem upd_upd {β : Type} (f : PName → β) (k : PName) (x y : β) : upd (upd f k x) k y = upd f k y := by
  funext z
  simp only [upd]
  split <;> rfl

omit F hs inv in
theorem upd_at {β : Type} (f : PName → β) (k : PName) (x : β) : upd f k x k = x := by simp [upd]

omit F hs inv in
theorem addCert_installed {v : View} (co : Coherent v) {i k : PName} {c : Crt} (hi : KeyName i k) (hc : CertName k c.name) (hk : v.key k = some c.pub) :
    v.addCert c = installed v i k c false false false := by
  have e1 : c.keyName = k := crt_keyName hc
  have e2 : c.identity = i := keyName_identity (crt_identity hc) hi
  obtain ⟨j, hj, hj'⟩ := co.parent k (by rw [hk]; rfl)
  have e3 := keyName_identity hj hi; subst e3
  simp only [View.addCert, View.addKey, View.addIdent, installed, e1, e2]
  rw [upd_same hj', upd_same hk]
  rfl

omit F hs inv in
theorem newCert_installed {v : View} (co : Coherent v) {i k : PName} {c : Crt} (hi : KeyName i k) (hc : CertName k c.name) (hk : v.key k = some c.pub) :
    { v.addCert c with defCert := upd v.defCert k (some c.name) } = installed v i k c false false true := by
  rw [addCert_installed co hi hc hk]; rfl

theorem ex_setDefaultKeyCmd (n : PName) : Ex R (TT C) s (setDefault b true false n) (Done C w s.tpm (.setDefault true false n)) := by
  show Ex R (TT C) s (keyByName b n >>= fun p => setDefaultKey b p.1 p.2 >>= fun _ => pure (0, Shown.nothing)) _
  refine exb_keyByName F hs n inv.t (fun i p w1 s1 hs1 l1 hi hk hp1 hp2 => ?_) (fun e w1 hn hsm he => ?_)
  · refine ex_end (ex_setDefaultKey F hs1 (l1.inv inv) p.1 p.2 ?_ ?_)
    · intro i' n' w' a1 a2 a3 a4 a5 a6
      have e1 := key_eq a2 hp2; subst e1
      refine ⟨?_, a6⟩
      simp only [CmdStep]
      rw [if_neg (by simp), if_pos (by simp), if_pos hk]
      refine ⟨rfl, i', a3, ?_⟩
      show (⟨w'.v, s1.tpm.priv⟩ : Store K) = _
      rw [a4, l1.tpm, l1.same.v]
    · intro e hn; exact absurd hi (hn i n hp1 hp2)
  · refine ⟨?_, inv.same hsm rfl⟩
    simp only [CmdStep]
    rw [if_neg (by simp), if_pos (by simp), if_neg (by rw [hn]; simp)]
    exact ⟨bad_err he, store_same _ hsm⟩

theorem ex_setDefaultIdentCmd (n : PName) : Ex R (TT C) s (setDefault b false false n) (Done C w s.tpm (.setDefault false false n)) := by
  show Ex R _ s (pibIdent b (.getIdentity n) >>= fun h => setDefaultIdentity b h >>= fun _ => pure (0, Shown.nothing)) _
  refine exb_getIdentity F hs n inv.t (fun h w1 s1 hs1 l1 hid hh => ?_) (fun hid => ?_)
  · refine ex_end (ex_setDefaultIdentity F hs1 (l1.inv inv) h ?_ ?_)
    · intro i w' a1 a2 a3 a4
      have e1 := ident_eq a1 hh; subst e1
      refine ⟨?_, a4⟩
      simp only [CmdStep]
      rw [if_neg (by simp), if_neg (by simp), if_neg (by simp), if_pos hid]
      refine ⟨rfl, ?_⟩
      show (⟨w'.v, s1.tpm.priv⟩ : Store K) = _
      rw [a2, l1.tpm, l1.same.v, withIdent_of hid]
    · intro hn; rw [identOf_iff.mpr hh] at hn; cases hn
  · refine ⟨?_, inv⟩
    simp only [CmdStep]
    rw [if_neg (by simp), if_neg (by simp), if_neg (by simp), if_neg (by rw [hid]; simp)]
    exact ⟨rfl, by first | rfl | trivial⟩

/-- The certificate is stored and made the default of its key. -/
theorem ex_newCert {i k : PName} {x : Nat} {c : Crt} (hi : KeyName i k) (hc : CertName k c.name) (hx : w.hs x = .alive (.key k)) (hk : w.v.key k = some c.pub)
    {Q : Except Err Unit → World → Tpm K → Prop}
    (hq : ∀ w', w' = ⟨installed w.v i k c false false true, w.hs⟩ → Inv C w' s.tpm → Q (.ok ()) w' s.tpm) :
    Ex R (TT C) s (onKeyHandle b x (.setDefaultNewCert x c)) Q := by
  have co := (F.rep hs.rep).coh
  have tt : ∀ out w', Step w (.setDefaultNewCert x c) out w' → out = .done ∧ w' = ⟨installed w.v i k c false false true, w.hs⟩ := by
    intro out w' hst
    simp only [Step, onKey, hx, if_pos (And.intro hc hk)] at hst
    rw [newCert_installed co hi hc hk] at hst
    exact hst
  refine ex_onKey F hs inv x (.setDefaultNewCert x c) (show ∃ k, CertName k c.name from ⟨k, hc⟩) (fun _ _ e => by cases e) ?_ ?_ ?_ ?_
  · intro n hn j hj hcj
    have := key_eq hx hj; subst this; exact hk
  · intro m out w' _ hst
    obtain ⟨-, rfl⟩ := tt out w' hst
    show TT C (installed w.v i k c false false true) _
    rw [← newCert_installed co hi hc hk]
    exact (inv.t.addCert (by rw [crt_keyName hc]; exact hk)).congr rfl rfl
  · intro m out w' _ hst hinv
    obtain ⟨rfl, rfl⟩ := tt out w' hst
    exact hq _ rfl hinv
  · intro hn; rw [keyOfH_iff.mpr hx] at hn; cases hn

theorem ex_setDefaultCertCmd (n : PName) : Ex R (TT C) s (setDefault b false true n) (Done C w s.tpm (.setDefault false true n)) := by
  show Ex R (TT C) s (keyByCert b n >>= fun p => pibCert b (.getCert p.2 n) >>= fun x => onKeyHandle b p.2 (.setDefaultNewCert p.2 x) >>= fun _ => pure (0, Shown.nothing)) _
  have no : ∀ e w1, w.v.cert n = none → Same w w1 → (e = .pib ∨ e = .invalid) → Done C w s.tpm (.setDefault false true n) (.error e) w1 s.tpm := by
    intro e w1 hn hsm he
    refine ⟨?_, inv.same hsm rfl⟩
    simp only [CmdStep]
    rw [if_neg (by simp), if_neg (by simp), if_pos (by simp), if_neg (by rw [hn]; simp)]
    exact ⟨bad_err he, store_same _ hsm⟩
  refine exb_keyByCert F hs n inv.t (fun i k p w1 s1 hs1 l1 hi hc hk hp1 hp2 => ?_) no
  refine exb_getCert F hs1 hp2 hc (l1.ok inv.t) (fun c s2 hs2 ht2 hx => ?_) (fun hx => ?_)
  · have inv2 : Inv C w1 s2.tpm := by rw [ht2]; exact l1.inv inv
    have hcn : c.name = n := (F.rep hs2.rep).coh.named _ _ hx
    have hc' : CertName k c.name := by rw [hcn]; exact hc
    have hkk : w1.v.key k = some c.pub := by rw [← crt_keyName hc']; exact inv2.certs _ _ hx
    refine ex_end (ex_newCert F hs2 inv2 hi hc' hp2 hkk ?_)
    intro w' e hinv
    refine ⟨?_, hinv⟩
    simp only [CmdStep]
    rw [if_neg (by simp), if_neg (by simp), if_pos (by simp), if_pos (by rw [← l1.same.v, hx]; rfl)]
    refine ⟨rfl, i, k, c, by rw [← l1.same.v]; exact hx, hi, hc, ?_⟩
    rw [e]
    show (⟨_, s2.tpm.priv⟩ : Store K) = _
    rw [l1.same.v, ht2, l1.tpm]
  · rw [l1.tpm]; exact no _ w1 (by rw [← l1.same.v]; exact hx) l1.same (.inl rfl)

/-! ## get-default and cert-dump -/

theorem exb_showDefCert {h : Nat} {k : PName} (hh : w.hs h = .alive (.key k)) {Q : Except Err (Nat × Shown) → World → Tpm K → Prop}
    (hq : ∀ r, Shows (w.v.defCert k) (exitOf r) → Q r w s.tpm) : Ex R (TT C) s (showDefCert b h) Q := by
  refine exb_getDefaultCert F hs hh inv.t (fun c s1 hs1 ht1 hd hx => ?_) (fun hd => ?_)
  · refine ex_pure hs1 _ ?_
    rw [ht1]; refine hq _ ?_
    rw [hd]; rfl
  · refine hq _ ?_
    rw [hd]; rfl

theorem exb_showKey {h : Nat} {k : PName} (hh : w.hs h = .alive (.key k)) {Q : Except Err (Nat × Shown) → World → Tpm K → Prop}
    (hq : ∀ r, exitOf r = .code 0 (.name k) → Q r w s.tpm) : Ex R (TT C) s (showKey b h) Q := by
  refine exb_keyName F hs inv.t hh (fun s1 hs1 ht1 => ?_)
  refine ex_pure hs1 _ ?_
  rw [ht1]; exact hq _ rfl

theorem ex_getDefaultCmd (k c : Bool) (i key : Option PName) : Ex R (TT C) s (getDefault b k c i key) (Done C w s.tpm (.getDefault k c i key)) := by
  have co := (F.rep hs.rep).coh
  by_cases h1 : (k = true ∧ c = true) ∨ (i.isSome ∧ key.isSome)
  · have e : (getDefault b k c i key : KM σ K (Nat × Shown)) = pure (2, .nothing) := by
      unfold getDefault
      rcases h1 with ⟨rfl, rfl⟩ | ⟨h1, h2⟩
      · rfl
      · rw [h1, h2]
        cases k <;> cases c <;> rfl
    rw [e]
    refine ex_pure hs _ ⟨⟨rfl, ?_⟩, inv⟩
    rw [if_pos h1]; rfl
  · have hq : ∀ r w', Same w w' →
        (match key, i with
        | some m, _ => if c = true then Shows (w.v.defCert m) (exitOf r) else Usage (exitOf r)
        | none, some j =>
          if k = true then Shows (w.v.defKey j) (exitOf r)
          else if c = true then Shows ((w.v.defKey j).bind w.v.defCert) (exitOf r)
          else if (w.v.defKey j).isSome then Usage (exitOf r) else Bad (exitOf r)
        | none, none =>
          if k = true then Shows (w.v.defIdent.bind w.v.defKey) (exitOf r)
          else if c = true then Shows ((w.v.defIdent.bind w.v.defKey).bind w.v.defCert) (exitOf r)
          else Shows w.v.defIdent (exitOf r)) → Done C w s.tpm (.getDefault k c i key) r w' s.tpm := by
      intro r w' hsm h
      refine ⟨⟨store_same _ hsm, ?_⟩, inv.same hsm rfl⟩
      rw [if_neg h1]; exact h
    generalize Done C w s.tpm (.getDefault k c i key) = Q at hq
    unfold getDefault
    rw [if_neg (by intro h; exact h1 (.inl (by simpa using h))), if_neg (by intro h; exact h1 (.inr (by simpa using h)))]
    cases key with
    | some m =>
      dsimp only
      dsimp only at hq
      by_cases hc : c = true
      · rw [if_pos hc]
        simp only [if_pos hc] at hq
        refine exb_keyByName F hs m inv.t (fun i p w1 s1 hs1 l1 hi hk hp1 hp2 => ?_) (fun e w1 hn hsm he => ?_)
        · refine exb_showDefCert F hs1 (l1.inv inv) hp2 (fun r hr => ?_)
          rw [l1.tpm]; exact hq r w1 l1.same (by rw [← l1.same.v]; exact hr)
        · refine hq _ w1 hsm ?_
          rw [Ndn.KeyChain.Coherent.noDefCert co hn]; exact bad_err he
      · rw [if_neg hc]
        simp only [if_neg hc] at hq
        exact ex_pure hs _ (hq _ w (.refl _) rfl)
    | none =>
      cases i with
      | some j =>
        dsimp only
        dsimp only at hq
        refine exb_getIdentity F hs j inv.t (fun h w1 s1 hs1 l1 hid hh => ?_) (fun hid => ?_)
        · refine exb_getDefaultKey F hs1 hh (l1.ok inv.t) (fun x kk w2 s2 hs2 l2 hd hx => ?_) (fun hd => ?_)
          · have l := l1.trans l2
            have hd' : w.v.defKey j = some kk := by rw [← l1.same.v]; exact hd
            by_cases hk : k = true
            · rw [if_pos hk]
              simp only [if_pos hk] at hq
              refine exb_showKey F hs2 (l.inv inv) hx (fun r hr => ?_)
              rw [l.tpm]; exact hq r w2 l.same (by rw [hd']; exact hr)
            · rw [if_neg hk]
              simp only [if_neg hk] at hq
              by_cases hc : c = true
              · rw [if_pos hc]
                simp only [if_pos hc] at hq
                refine exb_showDefCert F hs2 (l.inv inv) hx (fun r hr => ?_)
                rw [l.tpm]; exact hq r w2 l.same (by rw [hd', Option.bind_some, ← l.same.v]; exact hr)
              · rw [if_neg hc]
                simp only [if_neg hc] at hq
                refine ex_pure hs2 _ ?_
                rw [l.tpm]; exact hq _ w2 l.same (by rw [hd']; rfl)
          · rw [l1.tpm]
            rw [l1.same.v] at hd
            refine hq _ w1 l1.same ?_
            rw [hd]
            repeat' split
            all_goals first | rfl | (rename_i h; cases h)
        · have hd : w.v.defKey j = none := by
            cases hx : w.v.defKey j with
            | none => rfl
            | some kk =>
              obtain ⟨h2, h3⟩ := co.key _ _ hx
              obtain ⟨i', h4, h5⟩ := co.parent _ h2
              rw [keyName_identity h4 h3, hid] at h5; cases h5
          refine hq _ w (.refl _) ?_
          rw [hd]
          repeat' split
          all_goals first | rfl | (rename_i h; cases h)
      | none =>
        dsimp only
        dsimp only at hq
        refine exb_getDefaultIdentity F hs inv.t (fun h n w1 s1 hs1 l1 hid hh => ?_) (fun hid => ?_)
        · have dk : ∀ (f : Nat → KM σ K (Nat × Shown)), (k = true ∨ c = true) →
              (∀ x kk w2 (s2 : St σ K), Sim R s2.pib w2 → Looked w w2 s s2 → w.v.defKey n = some kk → w2.hs x = .alive (.key kk) → Ex R (TT C) s2 (f x) Q) →
              Ex R (TT C) s1 (pibKey b (.getDefaultKey h) >>= f) Q := by
            intro f hkc hf
            refine exb_getDefaultKey F hs1 hh (l1.ok inv.t) (fun x kk w2 s2 hs2 l2 hd hx => ?_) (fun hd => ?_)
            · exact hf x kk w2 s2 hs2 (l1.trans l2) (by rw [← l1.same.v]; exact hd) hx
            · rw [l1.tpm]
              rw [l1.same.v] at hd
              refine hq _ w1 l1.same ?_
              rw [hid, Option.bind_some, hd]
              split
              · rfl
              · split
                · rfl
                · rcases hkc with h | h <;> contradiction
          by_cases hk : k = true
          · rw [if_pos hk]
            refine dk _ (.inl hk) (fun x kk w2 s2 hs2 l hd hx => ?_)
            simp only [if_pos hk] at hq
            refine exb_showKey F hs2 (l.inv inv) hx (fun r hr => ?_)
            rw [l.tpm]; exact hq r w2 l.same (by rw [hid, Option.bind_some, hd]; exact hr)
          · rw [if_neg hk]
            by_cases hc : c = true
            · rw [if_pos hc]
              refine dk _ (.inr hc) (fun x kk w2 s2 hs2 l hd hx => ?_)
              simp only [if_neg hk, if_pos hc] at hq
              refine exb_showDefCert F hs2 (l.inv inv) hx (fun r hr => ?_)
              rw [l.tpm]; exact hq r w2 l.same (by rw [hid, Option.bind_some, hd, Option.bind_some, ← l.same.v]; exact hr)
            · rw [if_neg hc]
              simp only [if_neg hk, if_neg hc] at hq
              refine exb_identName F hs1 (l1.ok inv.t) hh (fun s2 hs2 ht2 => ?_)
              refine ex_pure hs2 _ ?_
              rw [ht2, l1.tpm]
              exact hq _ w1 l1.same (by rw [hid]; rfl)
        · refine hq _ w (.refl _) ?_
          rw [hid]
          repeat' split
          all_goals rfl

theorem ex_certDumpCmd (i k : Bool) (n : PName) : Ex R (TT C) s (certDump b i k n) (Done C w s.tpm (.certDump i k n)) := by
  have co := (F.rep hs.rep).coh
  by_cases h1 : i = true ∧ k = true
  · obtain ⟨rfl, rfl⟩ := h1
    refine ex_pure hs _ ⟨⟨rfl, ?_⟩, inv⟩
    rw [if_pos ⟨rfl, rfl⟩]; rfl
  · have hq : ∀ r w', Same w w' →
        (if i = true then ShowsCert (((w.v.defKey n).bind w.v.defCert).bind w.v.cert) (exitOf r)
        else if k = true then ShowsCert ((w.v.defCert n).bind w.v.cert) (exitOf r)
        else ShowsCert (w.v.cert n) (exitOf r)) → Done C w s.tpm (.certDump i k n) r w' s.tpm := by
      intro r w' hsm h
      refine ⟨⟨store_same _ hsm, ?_⟩, inv.same hsm rfl⟩
      rw [if_neg h1]; exact h
    generalize Done C w s.tpm (.certDump i k n) = Q at hq
    unfold certDump
    rw [if_neg (by intro h; exact h1 (by simpa using h))]
    refine ex_bind (Q1 := fun r w' t' => t' = s.tpm ∧ Same w w' ∧
      (if i = true then ShowsCert (((w.v.defKey n).bind w.v.defCert).bind w.v.cert) (exitOf (r.map (fun x => (0, .cert x))))
        else if k = true then ShowsCert ((w.v.defCert n).bind w.v.cert) (exitOf (r.map (fun x => (0, .cert x))))
        else ShowsCert (w.v.cert n) (exitOf (r.map (fun x => (0, .cert x)))))) ?_ ?_ ?_
    · unfold certFromPib
      have dc : ∀ (x : Nat) kk w1 (s1 : St σ K), Sim R s1.pib w1 → Looked w w1 s s1 → w1.hs x = .alive (.key kk) → ∀ {P : Except Err Crt → World → Tpm K → Prop},
          (∀ r w', Same w w' → ShowsCert ((w.v.defCert kk).bind w.v.cert) (exitOf (r.map (fun x => (0, .cert x)))) → P r w' s.tpm) →
          Ex R (TT C) s1 (pibCert b (.getDefaultCert x)) P := by
        intro x kk w1 s1 hs1 l1 hx P hP
        refine ex_getDefaultCert F hs1 hx (l1.ok inv.t) (fun c hd hc => ?_) (fun hd => ?_)
        · rw [l1.tpm]; rw [l1.same.v] at hd hc
          exact hP _ w1 l1.same (by rw [hd, Option.bind_some, hc]; rfl)
        · rw [l1.tpm]; rw [l1.same.v] at hd
          exact hP _ w1 l1.same (by rw [hd]; rfl)
      by_cases hi : i = true
      · rw [if_pos hi]
        simp only [if_pos hi]
        refine exb_getIdentity F hs n inv.t (fun h w1 s1 hs1 l1 hid hh => ?_) (fun hid => ?_)
        · refine exb_getDefaultKey F hs1 hh (l1.ok inv.t) (fun x kk w2 s2 hs2 l2 hd hx => ?_) (fun hd => ?_)
          · rw [l1.same.v] at hd
            refine dc x kk w2 s2 hs2 (l1.trans l2) hx (fun r w' hsm hr => ⟨rfl, hsm, ?_⟩)
            rw [hd, Option.bind_some]; exact hr
          · rw [l1.same.v] at hd
            refine ⟨l1.tpm, l1.same, ?_⟩
            rw [hd]; rfl
        · have hd : w.v.defKey n = none := by
            cases hx : w.v.defKey n with
            | none => rfl
            | some kk =>
              obtain ⟨h2, h3⟩ := co.key _ _ hx
              obtain ⟨i', h4, h5⟩ := co.parent _ h2
              rw [keyName_identity h4 h3, hid] at h5; cases h5
          refine ⟨rfl, .refl _, ?_⟩
          rw [hd]; rfl
      · rw [if_neg hi]
        simp only [if_neg hi]
        by_cases hk : k = true
        · rw [if_pos hk]
          simp only [if_pos hk]
          refine exb_keyByName F hs n inv.t (fun i p w1 s1 hs1 l1 hi hk hp1 hp2 => ?_) (fun e w1 hn hsm he => ⟨rfl, hsm, ?_⟩)
          · exact dc p.2 n w1 s1 hs1 l1 hp2 (fun r w' hsm hr => ⟨rfl, hsm, hr⟩)
          · rw [Ndn.KeyChain.Coherent.noDefCert co hn]; exact bad_err he
        · rw [if_neg hk]
          simp only [if_neg hk]
          refine exb_keyByCert F hs n inv.t (fun i k p w1 s1 hs1 l1 hi hc hk hp1 hp2 => ?_) (fun e w1 hn hsm he => ⟨rfl, hsm, ?_⟩)
          · refine ex_getCert F hs1 hp2 hc (l1.ok inv.t) (fun c hx => ⟨l1.tpm, l1.same, ?_⟩) (fun hx => ⟨l1.tpm, l1.same, ?_⟩)
            · rw [l1.same.v] at hx; rw [hx]; rfl
            · rw [l1.same.v] at hx; rw [hx]; rfl
          · rw [hn]; exact bad_err he
    · rintro a w1 s1 hs1 ⟨ht, hsm, h⟩
      refine ex_pure hs1 _ ?_
      rw [ht]; exact hq _ w1 hsm h
    · rintro e w1 t1 ⟨ht, hsm, h⟩
      rw [ht]; exact hq _ w1 hsm h

/-! ## cert-install and import -/

theorem ex_addCertCmd {i k : PName} {x : Nat} {c : Crt} (hi : KeyName i k) (hc : CertName k c.name) (hx : w.hs x = .alive (.key k))
    (hd : w.v.defCert k = some c.name → w.v.cert c.name = some c) {Q : Except Err Unit → World → Tpm K → Prop}
    (h1 : ∀ w', w.v.key k = some c.pub → w' = ⟨installed w.v i k c false false false, w.hs⟩ → Inv C w' s.tpm → Q (.ok ()) w' s.tpm)
    (h2 : w.v.key k ≠ some c.pub → Q (.error .invalid) w s.tpm) :
    Ex R (TT C) s (onKeyHandle b x (.addCert x c)) Q := by
  have co := (F.rep hs.rep).coh
  refine ex_onKey F hs inv x (.addCert x c) (show ∃ k, CertName k c.name from ⟨k, hc⟩) (fun _ _ e => by cases e) ?_ ?_ ?_ ?_
  · intro n hn j hj hcj
    have := key_eq hx hj; subst this; exact hd hcj.2
  · intro m out w' _ hst
    simp only [Step, onKey, hx] at hst
    split at hst
    · rename_i hk
      obtain ⟨-, rfl⟩ := hst
      exact inv.t.addCert (by rw [crt_keyName hc]; exact hk.2)
    · obtain ⟨-, rfl⟩ := hst; exact inv.t
  · intro m out w' _ hst hinv
    simp only [Step, onKey, hx] at hst
    split at hst
    · rename_i hk
      obtain ⟨rfl, rfl⟩ := hst
      exact h1 _ hk.2 (by rw [addCert_installed co hi hc hk.2]) hinv
    · rename_i hk
      obtain ⟨rfl, rfl⟩ := hst
      exact h2 (fun h => hk ⟨hc, h⟩)
  · intro hn; rw [keyOfH_iff.mpr hx] at hn; cases hn

omit F hs inv in
theorem installed_key (v : View) (i k : PName) (c : Crt) (x y z : Bool) : (installed v i k c x y z).key = v.key := rfl

omit F hs inv in
theorem installed_twice (v : View) (i k : PName) (c : Crt) (d1 d2 : Bool) :
    installed { (installed v i k c false false false) with
      defKey := if d2 then upd (installed v i k c false false false).defKey i (some k) else (installed v i k c false false false).defKey
      defIdent := if d1 then some i else (installed v i k c false false false).defIdent } i k c false false true = installed v i k c d1 d2 true := by
  unfold installed
  cases d1 <;> cases d2 <;> simp only [upd_upd, upd_at, orElse, Option.getD_some, if_true, if_false, Bool.false_eq_true]

theorem ex_certInstallCmd (id kd nd : Bool) (c : Crt) (hf : CmdFits C (storeOf w s.tpm) (.certInstall id kd nd c)) :
    Ex R (TT C) s (certInstall b id kd nd c) (Done C w s.tpm (.certInstall id kd nd c)) := by
  have co := (F.rep hs.rep).coh
  by_cases h1 : (id = true ∧ kd = true) ∨ (id = true ∧ nd = true) ∨ (kd = true ∧ nd = true)
  · have e : (certInstall b id kd nd c : KM σ K (Nat × Shown)) = pure (2, .nothing) := by
      unfold certInstall
      rw [if_pos (by rcases h1 with ⟨rfl, rfl⟩ | ⟨rfl, rfl⟩ | ⟨rfl, rfl⟩ <;> simp)]
    rw [e]
    refine ex_pure hs _ ⟨?_, inv⟩
    simp only [CmdStep]
    rw [if_pos h1]; exact ⟨rfl, by first | rfl | trivial⟩
  · obtain ⟨k, hc, hd⟩ := hf
    have hk := crt_identity hc
    have hkn := crt_keyName hc
    have hq : ∀ r w', (if w.v.key k = some c.pub then Good (exitOf r) ∧ w'.v = installed w.v c.identity k c (!(id || kd || nd)) (!(kd || nd)) (!nd)
        else Bad (exitOf r) ∧ w'.v = w.v) → Inv C w' s.tpm → Done C w s.tpm (.certInstall id kd nd c) r w' s.tpm := by
      intro r w' h hinv
      refine ⟨?_, hinv⟩
      simp only [CmdStep]
      rw [if_neg h1]
      refine ⟨c.identity, k, hk, hc, ?_⟩
      split at h
      · rename_i hkp; rw [if_pos hkp]; refine ⟨h.1, ?_⟩; unfold storeOf; rw [h.2]
      · rename_i hkp; rw [if_neg hkp]; refine ⟨h.1, ?_⟩; unfold storeOf; rw [h.2]
    generalize Done C w s.tpm (.certInstall id kd nd c) = Q at hq
    have fin : ∀ (f : Nat → Nat → KM σ K (Nat × Shown)),
        (∀ h x w1 (s1 : St σ K), w.v.key k = some c.pub → Sim R s1.pib w1 → w1.v = installed w.v c.identity k c false false false → s1.tpm = s.tpm →
          Inv C w1 s1.tpm → w1.hs h = .alive (.ident c.identity) → w1.hs x = .alive (.key k) → Ex R (TT C) s1 (f h x) Q) →
        Ex R (TT C) s (pibIdent b (.getIdentity c.identity) >>= fun h => pibKey b (.getKey h c.keyName) >>= fun x =>
          onKeyHandle b x (.addCert x c) >>= fun _ => f h x) Q := by
      intro f hfin
      refine exb_getIdentity F hs _ inv.t (fun h w1 s1 hs1 l1 hid hh => ?_) (fun hid => ?_)
      · rw [hkn]
        refine exb_getKey F hs1 hh hk (l1.ok inv.t) (fun x w2 s2 hs2 l2 hx hh2 => ?_) (fun hx => ?_)
        · have l := l1.trans l2
          refine ex_bind (Q1 := fun r w' t' => t' = s.tpm ∧ Inv C w' t' ∧ ((r = .ok () ∧ w.v.key k = some c.pub ∧ w'.v = installed w.v c.identity k c false false false ∧
              w'.hs = w2.hs) ∨ (r = .error .invalid ∧ w' = w2 ∧ w.v.key k ≠ some c.pub))) ?_ ?_ ?_
          · refine ex_addCertCmd F hs2 (l.inv inv) hk hc hh2 ?_ ?_ ?_
            · rw [l.same.v]; exact hd
            · intro w' a1 a2 a3
              rw [l.same.v] at a1 a2
              exact ⟨l.tpm, a3, .inl ⟨rfl, a1, by rw [a2], by rw [a2]⟩⟩
            · intro a1
              rw [l.same.v] at a1
              exact ⟨l.tpm, l.inv inv, .inr ⟨rfl, rfl, a1⟩⟩
          · rintro a w3 s3 hs3 ⟨a1, a2, ⟨a3, a4, a5, a6⟩ | ⟨a3, -⟩⟩
            · exact hfin h x w3 s3 a4 hs3 a5 a1 a2 (by rw [a6]; exact l2.same.live _ _ hh) (by rw [a6]; exact hh2)
            · cases a3
          · rintro e w3 t3 ⟨a1, a2, ⟨a3, -⟩ | ⟨a3, rfl, a5⟩⟩
            · cases a3
            · rw [a1] at a2 ⊢
              injection a3 with a3; subst a3
              refine hq _ w3 ?_ a2
              rw [if_neg a5]; exact ⟨rfl, l.same.v⟩
        · rw [l1.same.v] at hx
          rw [l1.tpm]
          refine hq _ w1 ?_ (inv.same l1.same rfl)
          rw [if_neg (by rw [hx]; simp)]; exact ⟨rfl, l1.same.v⟩
      · refine hq _ w ?_ inv
        rw [if_neg]
        · exact ⟨rfl, rfl⟩
        · intro hx
          obtain ⟨j, hj, hj'⟩ := co.parent k (by rw [hx]; rfl)
          rw [keyName_identity hj hk, hid] at hj'; cases hj'
    -- the certificate becomes the default of the key
    have last : ∀ h x w1 (s1 : St σ K), w.v.key k = some c.pub → Sim R s1.pib w1 → s1.tpm = s.tpm → Inv C w1 s1.tpm → w1.v.key = w.v.key →
        w1.hs h = .alive (.ident c.identity) → w1.hs x = .alive (.key k) →
        installed w1.v c.identity k c false false true = installed w.v c.identity k c (!(id || kd || nd)) (!(kd || nd)) (!nd) →
        Ex R (TT C) s1 (onKeyHandle b x (.setDefaultNewCert x c) >>= fun _ => pure (0, Shown.nothing)) Q := by
      intro h x w1 s1 hkp hs1 ht1 inv1 hkey hh hx hv
      refine ex_end (ex_newCert F hs1 inv1 hk hc hx (by rw [hkey]; exact hkp) ?_)
      intro w' a1 a2
      rw [ht1] at a2 ⊢
      refine hq _ w' ?_ a2
      rw [if_pos hkp]
      exact ⟨rfl, by rw [a1]; exact hv⟩
    -- the key becomes the default of the identity
    have mid : ∀ h x w1 (s1 : St σ K), w.v.key k = some c.pub → Sim R s1.pib w1 → s1.tpm = s.tpm → Inv C w1 s1.tpm → w1.v.key = w.v.key →
        w1.hs h = .alive (.ident c.identity) → w1.hs x = .alive (.key k) →
        installed { w1.v with defKey := upd w1.v.defKey c.identity (some k) } c.identity k c false false true =
          installed w.v c.identity k c (!(id || kd || nd)) (!(kd || nd)) (!nd) →
        Ex R (TT C) s1 (setDefaultKey b h x >>= fun _ => onKeyHandle b x (.setDefaultNewCert x c) >>= fun _ => pure (0, Shown.nothing)) Q := by
      intro h x w1 s1 hkp hs1 ht1 inv1 hkey hh hx hv
      refine ex_bind (Q1 := fun r w' t' => r = .ok () ∧ t' = s.tpm ∧ Inv C w' t' ∧ w'.v = { w1.v with defKey := upd w1.v.defKey c.identity (some k) } ∧
        (∀ x r, w1.hs x = .alive r → w'.hs x = .alive r)) ?_ ?_ ?_
      · refine ex_setDefaultKey F hs1 inv1 h x ?_ ?_
        · intro i n w' a1 a2 a3 a4 a5 a6
          have e1 := key_eq a2 hx; have e2 := ident_eq a1 hh; subst e1 e2
          exact ⟨rfl, ht1, a6, a4, a5⟩
        · intro e hn; exact absurd hk (hn _ _ hh hx)
      · rintro a w2 s2 hs2 ⟨-, a1, a2, a3, a4⟩
        exact last h x w2 s2 hkp hs2 a1 a2 (by rw [a3]; exact hkey) (a4 _ _ hh) (a4 _ _ hx) (by rw [a3]; exact hv)
      · rintro e w2 t2 ⟨a1, -⟩; cases a1
    unfold certInstall
    rw [if_neg (by intro h; apply h1; revert h; cases id <;> cases kd <;> cases nd <;> simp)]
    cases id with
    | true =>
      have hk' : kd = false := by cases kd with | false => rfl | true => exact absurd (.inl ⟨rfl, rfl⟩) h1
      have hn' : nd = false := by cases nd with | false => rfl | true => exact absurd (.inr (.inl ⟨rfl, rfl⟩)) h1
      subst hk' hn'
      refine fin (fun h x => setDefaultKey b h x >>= fun _ => onKeyHandle b x (.setDefaultNewCert x c) >>= fun _ => pure (0, Shown.nothing)) ?_
      intro h x w1 s1 hkp hs1 hv ht1 inv1 hh hx
      refine mid h x w1 s1 hkp hs1 ht1 inv1 (by rw [hv]; rfl) hh hx ?_
      rw [hv]
      exact installed_twice w.v c.identity k c false true
    | false =>
      cases kd with
      | true =>
        have hn' : nd = false := by cases nd with | false => rfl | true => exact absurd (.inr (.inr ⟨rfl, rfl⟩)) h1
        subst hn'
        refine fin (fun h x => onKeyHandle b x (.setDefaultNewCert x c) >>= fun _ => pure (0, Shown.nothing)) ?_
        intro h x w1 s1 hkp hs1 hv ht1 inv1 hh hx
        refine last h x w1 s1 hkp hs1 ht1 inv1 (by rw [hv]; rfl) hh hx ?_
        rw [hv]
        exact installed_twice w.v c.identity k c false false
      | false =>
        cases nd with
        | true =>
          refine fin (fun h x => pure (0, Shown.nothing)) ?_
          intro h x w1 s1 hkp hs1 hv ht1 inv1 hh hx
          refine ex_pure hs1 _ ?_
          rw [ht1] at inv1 ⊢
          refine hq _ w1 ?_ inv1
          rw [if_pos hkp]
          exact ⟨rfl, hv⟩
        | false =>
          refine fin (fun h x => setDefaultIdentity b h >>= fun _ => setDefaultKey b h x >>= fun _ => onKeyHandle b x (.setDefaultNewCert x c) >>= fun _ => pure (0, Shown.nothing)) ?_
          intro h x w1 s1 hkp hs1 hv ht1 inv1 hh hx
          refine ex_bind (Q1 := fun r w' t' => r = .ok () ∧ t' = s.tpm ∧ Inv C w' t' ∧ w'.v = { w1.v with defIdent := some c.identity } ∧
            (∀ x r, w1.hs x = .alive r → w'.hs x = .alive r)) ?_ ?_ ?_
          · refine ex_setDefaultIdentity F hs1 inv1 h ?_ ?_
            · intro i w' a1 a2 a3 a4
              have e1 := ident_eq a1 hh; subst e1
              exact ⟨rfl, ht1, a4, by rw [a2, withIdent_of (alive_ident hs1 hh)], a3⟩
            · intro hn; rw [identOf_iff.mpr hh] at hn; cases hn
          · rintro a w2 s2 hs2 ⟨-, a1, a2, a3, a4⟩
            refine mid h x w2 s2 hkp hs2 a1 a2 (by rw [a3, hv]; rfl) (a4 _ _ hh) (a4 _ _ hx) ?_
            rw [a3, hv]
            exact installed_twice w.v c.identity k c true true
          · rintro e w2 t2 ⟨a1, -⟩; cases a1

theorem ex_importCmd (c : Crt) (enc pw msg : Bytes) (hf : CmdFits C (storeOf w s.tpm) (.import_ c enc pw msg)) :
    Ex R (TT C) s (importBag C b c enc pw msg) (Done C w s.tpm (.import_ c enc pw msg)) := by
  obtain ⟨⟨k, hc⟩, ts⟩ := hf
  have hk := crt_identity hc
  refine ex_end (ex_importSafeBag F hs inv c enc pw msg hc ts ?_ ?_)
  · intro x w' t' hi a1 a2 a3 a4 a5 a6 a7
    refine ⟨⟨c.identity, k, hk, hc, ?_⟩, a7⟩
    rw [if_pos hi]
    refine ⟨x, a1, rfl, a3, ?_⟩
    unfold storeOf
    rw [a4, priv_put a6]
  · intro w' t' a1 a2 a3 a4
    refine ⟨⟨c.identity, k, hk, hc, ?_⟩, a4⟩
    rw [if_neg a1]
    refine ⟨rfl, ?_⟩
    show (⟨w'.v, t'.priv⟩ : Store K) = ⟨w.v, s.tpm.priv⟩
    rw [a2.v]
    congr 1
    funext n; exact a3 n

/-! ## key-gen -/

omit F hs inv in
theorem keyParams_iff (t : Char) (kt : Option Char) (kid : Option Comp) (id : KeyId) : keyParams t kt kid = some id ↔ KeyOptions t kt kid id := by
  have res : ∀ c, isReserved c = true ↔ Reserved c := by
    intro c
    unfold isReserved Reserved
    simp only [Bool.or_eq_true, Bool.and_eq_true, decide_eq_true_eq]
    constructor
    · rintro ((⟨h1, h2⟩ | ⟨h1, h2⟩) | h)
      · exact .inl ⟨.inl h1, h2⟩
      · exact .inl ⟨.inr h1, h2⟩
      · exact .inr h
    · rintro (⟨h1 | h1, h2⟩ | h)
      · exact .inl (.inl ⟨h1, h2⟩)
      · exact .inl (.inr ⟨h1, h2⟩)
      · exact .inr h
  constructor
  · intro h
    unfold keyParams at h
    by_cases ht : t = 'r' ∨ t = 'e'
    · rw [if_pos ht] at h
      split at h
      · cases h
      · rename_i c
        split at h
        · cases h
        · rename_i hr
          injection h with h; subst h
          refine .user ht ?_ ?_
          · intro e; rw [e] at hr; exact hr (by simp)
          · intro e; exact hr (by rw [(res c).mpr e]; simp)
      · injection h with h; subst h; exact .hash ht
      · injection h with h; subst h; exact .random ht
      · cases h
      · injection h with h; subst h; exact .default ht
    · rw [if_neg ht] at h; cases h
  · intro h
    cases h with
    | default ht => unfold keyParams; rw [if_pos ht]
    | random ht => unfold keyParams; rw [if_pos ht]; simp
    | hash ht => unfold keyParams; rw [if_pos ht]; simp
    | user ht h1 h2 =>
      unfold keyParams
      rw [if_pos ht]
      dsimp only
      rw [if_neg]
      intro h
      rcases Bool.or_eq_true _ _ ▸ h with h | h
      · exact h1 (List.isEmpty_iff.mp h)
      · exact h2 ((res _).mp h)

omit F hs inv in
/-- What is known of the view after a key was added. -/
theorem keyAdded_view {v v' : View} {priv priv' : PName → Option (Option K)} {i k : PName} {id : KeyId} {e : Env K}
    (h : KeyAdded C v priv i id e k v' priv') :
    KeyName i k ∧ (v'.defCert k).isSome ∧ (v.defKey i = none → v'.defKey i = some k) ∧ v'.ident i = true := by
  obtain ⟨p, c, a1, a2, a3, a4, a5, a6, a7, a8, a9⟩ := h
  have hk := nameFor_key a1
  have e1 : c.keyName = k := crt_keyName a5
  have e2 : c.identity = i := keyName_identity (crt_identity a5) hk
  refine ⟨hk, ?_, ?_, ?_⟩
  · rw [a8]; simp [View.addCert, e1, upd_at, orElse]
  · intro hn
    rw [a8]
    simp [View.addCert, View.addKey, e1, e2, upd_at, orElse, hn]
  · rw [a8]
    simp [View.addCert, View.addKey, View.addIdent, e2, upd_at]

theorem ex_keyGenCmd (W : Works C) (n : PName) (d : Bool) (t : Char) (kt : Option Char) (kid : Option Comp) (e : Env K)
    (hf : CmdFits C (storeOf w s.tpm) (.keyGen n d t kt kid e)) :
    Ex R (TT C) s (keyGen C b n d t kt kid e) (Done C w s.tpm (.keyGen n d t kt kid e)) := by
  have co := (F.rep hs.rep).coh
  unfold keyGen
  cases hp : keyParams t kt kid with
  | none =>
    refine ex_pure hs _ ⟨.inr (.inr ⟨?_, rfl, rfl⟩), inv⟩
    rintro ⟨id, h⟩
    rw [(keyParams_iff t kt kid id).mpr h] at hp; cases hp
  | some id =>
    have ho := (keyParams_iff t kt kid id).mp hp
    have fr := hf id ho
    have hq1 : ∀ er w' t', ¬ Possible C n id e s.tpm.priv → Grows w.v w'.v → KeysGrow s.tpm.keys t'.keys → Inv C w' t' → Done C w s.tpm (.keyGen n d t kt kid e) (.error er) w' t' := by
      intro er w' t' h0 h1 h2 h3
      refine ⟨.inr (.inl ⟨id, ho, ?_, h0, h1, h2⟩), h3⟩
      intro o; cases er <;> (intro h; cases h)
    have hq2 : ∀ k v z w' t', KeyAdded C (withIdent w.v n) s.tpm.priv n id e k v t'.priv → v.defCert k = some z.name → v.cert z.name = some z →
        w'.v = (if d = true then v else makeDefault v n k) → Inv C w' t' → Done C w s.tpm (.keyGen n d t kt kid e) (.ok (0, .cert z)) w' t' := by
      intro k v z w' t' h1 h2 h3 h4 h5
      exact ⟨.inl ⟨id, k, v, z, ho, h1, h2, h3, rfl, h4⟩, h5⟩
    generalize Done C w s.tpm (.keyGen n d t kt kid e) = Q at hq1 hq2
    dsimp only
    refine ex_bind (Q1 := fun r w' t' => Inv C w' t' ∧ match r with
      | .ok p => ∃ k, KeyAdded C (withIdent w.v n) s.tpm.priv n id e k w'.v t'.priv ∧ KeyName n k ∧ (w'.v.defCert k).isSome ∧
          w'.hs p.1 = .alive (.ident n) ∧ w'.hs p.2 = .alive (.key k)
      | .error er => ¬ Possible C n id e s.tpm.priv ∧ Grows w.v w'.v ∧ KeysGrow s.tpm.keys t'.keys) ?_ ?_ ?_
    · refine ex_orPib (Q1 := fun r w' t' => Inv C w' t' ∧ match r with
        | .ok p => ∃ k, KeyAdded C (withIdent w.v n) s.tpm.priv n id e k w'.v t'.priv ∧ KeyName n k ∧ (w'.v.defCert k).isSome ∧
            w'.hs p.1 = .alive (.ident n) ∧ w'.hs p.2 = .alive (.key k)
        | .error er => Grows w.v w'.v ∧ KeysGrow s.tpm.keys t'.keys ∧ (er = .pib → w.v.ident n = false ∧ w' = w ∧ t' = s.tpm) ∧ (er ≠ .pib → ¬ Possible C n id e s.tpm.priv)) ?_ ?_ ?_
      · refine exb_getIdentity F hs n inv.t (fun h w1 s1 hs1 l1 hid hh => ?_) (fun hid => ⟨inv, .refl _, fun _ _ h => h, (fun _ => ⟨hid, rfl, rfl⟩), fun h => absurd rfl h⟩)
        refine ex_bind (Q1 := fun r w' t' => Inv C w' t' ∧ match r with
          | .ok x => ∃ k, KeyAdded C (withIdent w.v n) s.tpm.priv n id e k w'.v t'.priv ∧ w'.hs h = .alive (.ident n) ∧ w'.hs x = .alive (.key k)
          | .error er => Grows w.v w'.v ∧ KeysGrow s.tpm.keys t'.keys ∧ er ≠ .pib ∧ ¬ Possible C n id e s.tpm.priv) ?_ ?_ ?_
        · refine ex_createKey F W hs1 (l1.inv inv) e id hh (by rw [l1.tpm]; exact fr) ?_ ?_
          · rintro kh w' t' ⟨k, p, c, a1, a2, a3, a4, a5, a6, a7, a8, a9, a10, a11⟩ hinv
            refine ⟨hinv, k, ?_, a10 _ _ hh, a7⟩
            rw [withIdent_of hid, ← l1.same.v]
            rw [l1.tpm] at a3 a9
            exact ⟨p, c, a1, a2, a3, a4, a5, a6, a11, a8, priv_put a9⟩
          · intro er w' t' a0 a5 a1 a2 a3 a4
            rw [l1.same.v] at a1
            rw [l1.tpm] at a3 a5
            exact ⟨a4, a1, a3, a0, a5⟩
        · rintro x w2 s2 hs2 ⟨hinv, k, a1, a2, a3⟩
          have hv := keyAdded_view a1
          exact ex_pure hs2 _ ⟨hinv, k, a1, hv.1, hv.2.1, a2, a3⟩
        · rintro er w2 t2 ⟨hinv, a1, a2, a3, a4⟩
          exact ⟨hinv, a1, a2, fun h => absurd h a3, fun _ => a4⟩
      · rintro w1 s1 hs1 ⟨hinv, -, -, h, -⟩
        obtain ⟨hid, rfl, ht1⟩ := h rfl
        have hd : w1.v.defKey n = none := by
          cases hx : w1.v.defKey n with
          | none => rfl
          | some kk =>
            obtain ⟨h2, h3⟩ := co.key _ _ hx
            obtain ⟨i', h4, h5⟩ := co.parent _ h2
            rw [keyName_identity h4 h3, hid] at h5; cases h5
        refine ex_bind (Q1 := fun r w' t' => Inv C w' t' ∧ match r with
          | .ok h => ∃ k, KeyAdded C (withIdent w1.v n) s.tpm.priv n id e k w'.v t'.priv ∧ w'.hs h = .alive (.ident n)
          | .error er => ¬ Possible C n id e s.tpm.priv ∧ Grows w1.v w'.v ∧ KeysGrow s.tpm.keys t'.keys) ?_ ?_ ?_
        · refine ex_createIdentity F W hs1 hinv e n id (fun _ => by rw [ht1]; exact fr) ?_ ?_
          · intro h w' t' a1 a2 a3 a4 a5 a6
            unfold IdentMade at a5
            rw [hd] at a5
            obtain ⟨k, a5⟩ := a5
            rw [ht1] at a5
            exact ⟨a6, k, a5, a1⟩
          · intro er w' t' a1 a0 a2 a3 a4 a5
            unfold IdentPossible at a0
            rw [hd] at a0
            rw [ht1] at a4 a0
            exact ⟨a5, a0, a2, a4⟩
        · rintro h w2 s2 hs2 ⟨hinv2, k, a1, a2⟩
          have hv := keyAdded_view a1
          have hd2 : w2.v.defKey n = some k := hv.2.2.1 (by rw [withIdent_defKey]; exact hd)
          refine exb_getDefaultKey F hs2 a2 hinv2.t (fun x kk w3 s3 hs3 l3 hx hh3 => ?_) (fun hx => by rw [hd2] at hx; cases hx)
          rw [hd2] at hx; injection hx with hx; subst hx
          refine ex_pure hs3 _ ⟨l3.inv hinv2, k, ?_, hv.1, ?_, l3.same.live _ _ a2, hh3⟩
          · rw [l3.same.v, l3.tpm]; exact a1
          · rw [l3.same.v]; exact hv.2.1
        · rintro er w2 t2 ⟨hinv2, a0, a1, a2⟩
          exact ⟨hinv2, a0, a1, a2⟩
      · rintro r w1 t1 hr ⟨hinv, h⟩
        refine ⟨hinv, ?_⟩
        cases r with
        | ok p => exact h
        | error er => exact ⟨h.2.2.2 (fun h' => hr (by rw [h'])), h.1, h.2.1⟩
    · rintro p w1 s1 hs1 ⟨inv1, k, a1, a2, a3, a4, a5⟩
      -- the certificate is shown
      have last : ∀ w2 (s2 : St σ K), Sim R s2.pib w2 → Inv C w2 s2.tpm → s2.tpm = s1.tpm → w2.v = (if d = true then w1.v else makeDefault w1.v n k) →
          w2.hs p.2 = .alive (.key k) → Ex R (TT C) s2 (pibCert b (.getDefaultCert p.2) >>= fun x => pure (0, Shown.cert x)) Q := by
        intro w2 s2 hs2 inv2 ht2 hv hh
        have e1 : w2.v.defCert = w1.v.defCert := by rw [hv]; split <;> rfl
        have e2 : w2.v.cert = w1.v.cert := by rw [hv]; split <;> rfl
        refine exb_getDefaultCert F hs2 hh inv2.t (fun c s3 hs3 ht3 b1 b2 => ?_) (fun b1 => ?_)
        · refine ex_pure hs3 _ ?_
          rw [e1] at b1; rw [e2] at b2
          refine hq2 k w1.v c w2 s3.tpm ?_ b1 b2 hv (by rw [ht3]; exact inv2)
          rw [ht3, ht2]; exact a1
        · rw [e1] at b1; rw [b1] at a3; cases a3
      cases d with
      | true => exact last w1 s1 hs1 inv1 rfl rfl a5
      | false =>
        show Ex R (TT C) s1 (setDefaultKey b p.1 p.2 >>= fun _ => setDefaultIdentity b p.1 >>= fun _ => pibCert b (.getDefaultCert p.2) >>= fun x => pure (0, Shown.cert x)) Q
        refine ex_bind (Q1 := fun r w' t' => r = .ok () ∧ t' = s1.tpm ∧ Inv C w' t' ∧ w'.v = { w1.v with defKey := upd w1.v.defKey n (some k) } ∧
          (∀ x r, w1.hs x = .alive r → w'.hs x = .alive r)) ?_ ?_ ?_
        · refine ex_setDefaultKey F hs1 inv1 p.1 p.2 ?_ ?_
          · intro i m w' b1 b2 b3 b4 b5 b6
            have e1 := key_eq b2 a5; have e2 := ident_eq b1 a4; subst e1 e2
            exact ⟨rfl, rfl, b6, b4, b5⟩
          · intro er hn; exact absurd a2 (hn _ _ a4 a5)
        · rintro a w2 s2 hs2 ⟨-, b1, b2, b3, b4⟩
          refine ex_bind (Q1 := fun r w' t' => r = .ok () ∧ t' = s1.tpm ∧ Inv C w' t' ∧ w'.v = makeDefault w1.v n k ∧
            (∀ x r, w2.hs x = .alive r → w'.hs x = .alive r)) ?_ ?_ ?_
          · refine ex_setDefaultIdentity F hs2 b2 p.1 ?_ ?_
            · intro i w' c1 c2 c3 c4
              have hh2 := b4 _ _ a4
              have e1 := ident_eq c1 hh2; subst e1
              refine ⟨rfl, b1, c4, ?_, c3⟩
              rw [c2, withIdent_of (alive_ident hs2 hh2), b3]; rfl
            · intro hn; rw [identOf_iff.mpr (b4 _ _ a4)] at hn; cases hn
          · rintro a w3 s3 hs3 ⟨-, c1, c2, c3, c4⟩
            exact last w3 s3 hs3 c2 c1 c3 (c4 _ _ (b4 _ _ a5))
          · rintro er w3 t3 ⟨c1, -⟩; cases c1
        · rintro er w2 t2 ⟨b1, -⟩; cases b1
    · rintro er w1 t1 ⟨inv1, a1, a2⟩
      exact hq1 er w1 t1 a1 a2.1 a2.2 inv1

/-! ## sign-req and cert-gen -/

omit F hs inv in
/-- The errors of signing with a key of the PIB, or with a digest only. -/
theorem signRes_err {d : DObj} {si : SigInfo} {n : PName} {a : Alg} {priv : PName → Option (Option K)} {r : Except Err DObj}
    (h : SignRes C d si n a priv r) (hn : n = digestIdentity ∨ ∃ x, priv n = some (some x)) :
    (∃ d', r = .ok d') ∨ r = .error .encode ∨ r = .error .crypto := by
  unfold SignRes at h
  split at h
  · exact .inr (.inl h)
  · rename_i u hu
    have fin : ∀ sig, ((∃ d', Signed d si u sig d' ∧ r = .ok d') ∨
        (((DObj.reset { d.f with sigInfo := si }).finish u sig).2 = none ∧ r = .error .encode)) →
        (∃ d', r = .ok d') ∨ r = .error .encode ∨ r = .error .crypto := by
      rintro sig (⟨d', -, hr⟩ | ⟨-, hr⟩)
      · exact .inl ⟨d', hr⟩
      · exact .inr (.inl hr)
    dsimp only at h
    split at h
    · exact fin _ h
    · rename_i hd
      rcases hn with hn | ⟨x, hx⟩
      · exact absurd hn hd
      · rw [hx] at h
        dsimp only at h
        split at h
        · exact fin _ h
        · exact .inr (.inr h)

omit F hs inv in
/-- Making a certificate with a key of the PIB, or with a digest. -/
theorem issues_of {kw kw' : KWorld K} {n : PName} {pub : Bytes} {p : SInfo K} {o : CertOpts} {r : Except Err DObj}
    (co : Coherent kw.pib.v) (hc : Consistent C kw) (hn : ∃ i, KeyName i n) (h : CertStep C kw n pub p o (r.map .data) kw') (hf : 0 < o.freshness)
    (hp : p.type ≠ .hmac) (ha : p.alg = .sha256) :
    (kw'.pib.v = kw.pib.v ∧ kw'.priv = kw.priv) ∧
    (∀ k loc bits, Signer kw.pib p k loc → kw.pib.v.key k = some bits →
      Issues C (certFields n pub o) (keyInfo C { p with info := (SObj.addCustom ⟨none, p.info⟩ o.validity).s } bits loc)
        (fun u sig => C.verify bits u sig = true) (exitOf (r.map fun d => (0, .data d)))) ∧
    (Digest kw.pib p → Issues C (certFields n pub o) (digestInfo { p with info := (SObj.addCustom ⟨none, p.info⟩ o.validity).s })
        (fun u sig => sig = C.sha u) (exitOf (r.map fun d => (0, .data d)))) ∧
    ((∀ k loc, ¬ Signer kw.pib p k loc) → ¬ Digest kw.pib p → Bad (exitOf (r.map fun d => (0, .data d)))) := by
  unfold CertStep at h
  rw [if_neg (by omega)] at h
  obtain ⟨rs, h5, h6⟩ := h
  have sg := signs_of co hc h5
  have si : ∀ k loc, Signer kw.pib { p with info := (SObj.addCustom ⟨none, p.info⟩ o.validity).s } k loc ↔ Signer kw.pib p k loc := by
    intro k loc
    constructor
    · intro h1
      cases h1 with
      | default a1 a2 a3 => exact .default a1 a2 a3
      | ident a1 a2 a3 => exact .ident a1 a2 a3
      | key a1 a2 => exact .key a1 a2
      | cert a1 a2 a3 => exact .cert a1 a2 a3
    · intro h1
      cases h1 with
      | default a1 a2 a3 => exact .default a1 a2 a3
      | ident a1 a2 a3 => exact .ident a1 a2 a3
      | key a1 a2 => exact .key a1 a2
      | cert a1 a2 a3 => exact .cert a1 a2 a3
  have isc : ∀ d, d.f.name = (certFields n pub o).name → d.f.minfo = (certFields n pub o).minfo → IsCert d := by
    intro d e1 e2
    obtain ⟨i, hi⟩ := hn
    unfold IsCert
    rw [e1, e2]
    refine ⟨⟨n, ⟨_, _, rfl⟩, i, hi⟩, rfl, ?_⟩
    show 0 < ({ MetaInfo.init with type := 2, freshness := o.freshness.toNat } : MetaInfo).getFreshness
    simp only [MetaInfo.getFreshness]
    split <;> omega
  have out : ∀ d, rs = .ok d → IsCert d → r = .ok d := by
    intro d e hd
    rw [e] at h6
    dsimp only at h6
    rw [if_pos hd] at h6
    cases r with
    | error e => cases h6
    | ok x => injection h6 with h6; injection h6 with h6; rw [h6]
  have err : ∀ e, rs = .error e → r = .error e := by
    intro e he
    rw [he] at h6
    cases r with
    | error e => injection h6 with h6; rw [h6]
    | ok x => cases h6
  have one : ∀ (si : SigInfo) (ok : Bytes → Bytes → Prop) (m : PName) (pr : PName → Option (Option K)),
      SignRes C (.reset (certFields n pub o)) si m p.alg pr rs → (m = digestIdentity ∨ ∃ x, pr m = some (some x)) →
      (Encodable C (.reset (certFields n pub o)) si → ∃ d', rs.map KRes.data = .ok (.data d') ∧ SignedAs (.reset (certFields n pub o)) si ok d') →
      Issues C (certFields n pub o) si ok (exitOf (r.map fun d => (0, .data d))) := by
    intro si ok m pr hsr hm hen
    constructor
    · intro he
      obtain ⟨d', e1, e2⟩ := hen he
      have e3 : rs = .ok d' := by
        cases rs with
        | error e => cases e1
        | ok x => injection e1 with e1; injection e1 with e1; rw [e1]
      have hd : IsCert d' := by
        obtain ⟨sig, wr, blk, es, u, e4, -⟩ := e2
        exact isc d' (by rw [e4]; rfl) (by rw [e4]; rfl)
      rw [out d' e3 hd]
      exact ⟨d', rfl, hd, e2⟩
    · rcases signRes_err hsr hm with ⟨d', e1⟩ | e1 | e1
      · by_cases hd : IsCert d'
        · rw [out d' e1 hd]; exact .inl ⟨d', rfl, hd⟩
        · rw [e1] at h6
          dsimp only at h6
          rw [if_neg hd] at h6
          cases r with
          | ok x => cases h6
          | error e => injection h6 with h6; subst h6; exact .inr rfl
      · rw [err _ e1]; exact .inr rfl
      · rw [err _ e1]; exact .inr rfl
  refine ⟨⟨sg.pib.1, sg.tpm (.inl hp)⟩, ?_, ?_, ?_⟩
  · intro k loc bits h1 h2
    obtain ⟨-, -, h⟩ := h5
    rcases h with ⟨k', loc', bits', a1, a2, a3, a4⟩ | ⟨a1, -⟩ | ⟨a1, -⟩ | ⟨-, a1, -⟩
    · obtain ⟨rfl, rfl⟩ := signer_unique ((si _ _).mpr h1) a1
      rw [h2] at a2; injection a2 with a2; subst a2
      obtain ⟨x, hx, hm⟩ := hc.1 k bits h2
      exact one _ _ k kw.priv a4 (.inr ⟨x, hx⟩) (sg.key k loc bits ((si _ _).mpr h1) h2 ha)
    · exact absurd a1 (signer_not_digest ((si _ _).mpr h1))
    · exact absurd a1 hp
    · exact absurd ((si _ _).mpr h1) (a1 _ _)
  · intro h1
    have h1' : Digest kw.pib { p with info := (SObj.addCustom ⟨none, p.info⟩ o.validity).s } := h1
    obtain ⟨-, -, h⟩ := h5
    rcases h with ⟨k', loc', bits', a1, a2, a3, a4⟩ | ⟨a1, a2, a3⟩ | ⟨a1, -⟩ | ⟨-, -, a1, -⟩
    · exact absurd h1' (signer_not_digest a1)
    · exact one _ _ digestIdentity kw.priv a3 (.inl rfl) (sg.digest h1')
    · exact absurd a1 hp
    · exact absurd h1' a1
  · intro h1 h2
    rcases sg.none (fun k loc hk => h1 k loc ((si _ _).mp hk)) h2 hp with h | h
    · cases rs with
      | ok x => cases h
      | error e => injection h with h; subst h; rw [err _ rfl]; rfl
    · cases rs with
      | ok x => cases h
      | error e => injection h with h; subst h; rw [err _ rfl]; rfl

omit hs inv F in
theorem custom_init (r : Raw) : (SObj.addCustom ⟨none, SigInfo.init⟩ r).s = ⟨none, none, [r]⟩ := rfl

omit hs inv F in
theorem custom_parts (l : List Raw) (r : Raw) : (SObj.addCustom ⟨none, ⟨none, none, l⟩⟩ r).s = ⟨none, none, withCustom l r⟩ := by
  unfold withCustom SObj.addCustom
  split
  · rfl
  · split <;> rfl

theorem ex_signReqCmd (W : Works C) (k : Bool) (n : PName) (version : Nat) (validity : Raw) :
    Ex R (TT C) s (signReq C b k n version validity) (Done C w s.tpm (.signReq k n version validity)) := by
  have co := (F.rep hs.rep).coh
  have rest : ∀ x m w1 (s1 : St σ K), Sim R s1.pib w1 → Looked w w1 s s1 → w1.hs x = .alive (.key m) →
      (if k = true then (if (w.v.key n).isSome then some n else none) else w.v.defKey n) = some m →
      Ex R (TT C) s1 (pibNames b (.keyName x) >>= fun l => makeCert C b x (SInfo.init.setPibKey (some x) (some (l.headD [])))
        ⟨requestComp, version, 3600000, validity⟩ >>= fun d => pure (0, Shown.data d)) (Done C w s.tpm (.signReq k n version validity)) := by
    intro x m w1 s1 hs1 l1 hx hm
    refine exb_keyName F hs1 (l1.ok inv.t) hx (fun s2 hs2 ht2 => ?_)
    have inv2 : Inv C w1 s2.tpm := by rw [ht2]; exact l1.inv inv
    dsimp only [List.headD_cons]
    refine ex_bind (Q1 := fun r w' t' => Done C w s.tpm (.signReq k n version validity) (r.map fun d => (0, .data d)) w' t') ?_
      (fun d w' s' hs' hq => ex_pure hs' _ hq) (fun e w' t' hq => hq)
    unfold makeCert
    refine exb_keyName F hs2 inv2.t hx (fun s3 hs3 ht3 => ?_)
    have inv3 : Inv C w1 s3.tpm := by rw [ht3]; exact inv2
    refine exb_keyBits F hs3 inv3.t hx (fun s4 bits hs4 ht4 hb => ?_)
    have inv4 : Inv C w1 s4.tpm := by rw [ht4]; exact inv3
    dsimp only [List.headD_cons]
    refine (good_certPacket F W hs4 inv4 m bits (SInfo.init.setPibKey (some x) (some m)) ⟨requestComp, version, 3600000, validity⟩).mono ?_
    rintro r w' t' ⟨h1, h2⟩
    obtain ⟨i, hi, -⟩ := (F.rep hs4.rep).coh.parent m (by rw [hb]; rfl)
    obtain ⟨⟨h3, h3'⟩, h4, -⟩ := issues_of (F.rep hs4.rep).coh (consistent_of inv4) ⟨i, hi⟩ h1 (show (0:Int) < 3600000 by decide) (by intro h; cases h) rfl
    refine ⟨⟨?_, ?_⟩, h2⟩
    · show (⟨w'.v, t'.priv⟩ : Store K) = ⟨w.v, s.tpm.priv⟩
      rw [show w'.v = w1.v from h3, show t'.priv = s4.tpm.priv from h3', l1.same.v, ht4, ht3, ht2, l1.tpm]
    · show match (if k = true then (if (w.v.key n).isSome then some n else none) else w.v.defKey n) with
        | none => Bad _
        | some m => _
      rw [hm]
      refine ⟨bits, by show w.v.key m = _; rw [← l1.same.v]; exact hb, ?_⟩
      have := h4 m (locator w1.v m) bits (.key rfl (.inl ⟨x, rfl, hx⟩)) hb
      rw [l1.same.v] at this
      exact this
  have none_ : ∀ e w1, (if k = true then (if (w.v.key n).isSome then some n else none) else w.v.defKey n) = none → Same w w1 → (e = .pib ∨ e = .invalid) →
      Done C w s.tpm (.signReq k n version validity) (.error e) w1 s.tpm := by
    intro e w1 hm hsm he
    refine ⟨⟨store_same _ hsm, ?_⟩, inv.same hsm rfl⟩
    show match (if k = true then (if (w.v.key n).isSome then some n else none) else w.v.defKey n) with
      | none => Bad _
      | some m => _
    rw [hm]; exact bad_err he
  cases k with
  | true =>
    refine exb_keyByName F hs n inv.t (fun i p w1 s1 hs1 l1 hi hk hp1 hp2 => ?_) (fun e w1 hn hsm he => ?_)
    · exact rest p.2 n w1 s1 hs1 l1 hp2 (by rw [if_pos rfl, if_pos hk])
    · exact none_ e w1 (by rw [if_pos rfl, hn]; rfl) hsm he
  | false =>
    refine exb_getIdentity F hs n inv.t (fun h w1 s1 hs1 l1 hid hh => ?_) (fun hid => ?_)
    · refine exb_getDefaultKey F hs1 hh (l1.ok inv.t) (fun x kk w2 s2 hs2 l2 hd hx => ?_) (fun hd => ?_)
      · exact rest x kk w2 s2 hs2 (l1.trans l2) hx (by rw [if_neg (by simp), ← l1.same.v]; exact hd)
      · rw [l1.tpm]
        exact none_ _ w1 (by rw [if_neg (by simp), ← l1.same.v]; exact hd) l1.same (.inl rfl)
    · refine none_ _ w ?_ (.refl _) (.inl rfl)
      rw [if_neg (by simp)]
      cases hx : w.v.defKey n with
      | none => rfl
      | some kk =>
        obtain ⟨h2, h3⟩ := co.key _ _ hx
        obtain ⟨i', h4, h5⟩ := co.parent _ h2
        rw [keyName_identity h4 h3, hid] at h5; cases h5

theorem ex_certGenCmd (W : Works C) (signId : Option PName) (info : Option Raw) (issuer : Comp) (nb : Nat) (na : Option Nat) (period : Nat → Nat → Raw)
    (version : Nat) (req : Crt) :
    Ex R (TT C) s (certGen C b signId info issuer nb na period version req) (Done C w s.tpm (.certGen signId info issuer nb na period version req)) := by
  have co := (F.rep hs.rep).coh
  have rs : isReserved issuer = true ↔ Reserved issuer := by
    unfold isReserved Reserved
    simp only [Bool.or_eq_true, Bool.and_eq_true, decide_eq_true_eq]
    constructor
    · rintro ((⟨h1, h2⟩ | ⟨h1, h2⟩) | h)
      · exact .inl ⟨.inl h1, h2⟩
      · exact .inl ⟨.inr h1, h2⟩
      · exact .inr h
    · rintro (⟨h1 | h1, h2⟩ | h)
      · exact .inl (.inl ⟨h1, h2⟩)
      · exact .inl (.inr ⟨h1, h2⟩)
      · exact .inr h
  by_cases hu : (∃ t, na = some t ∧ t < nb) ∨ Reserved issuer
  · have e : (certGen C b signId info issuer nb na period version req : KM σ K (Nat × Shown)) = pure (2, .nothing) := by
      unfold certGen
      rcases hu with ⟨t, rfl, h⟩ | h
      · rw [if_pos (by simpa using h)]
      · split
        · rfl
        · rw [if_pos (rs.mpr h)]
    rw [e]
    refine ex_pure hs _ ⟨⟨rfl, ?_⟩, inv⟩
    rw [if_pos hu]; rfl
  · unfold certGen
    rw [if_neg (by
      intro h
      cases na with
      | none => simp at h
      | some t => exact hu (.inl ⟨t, rfl, by simpa using h⟩)), if_neg (by intro h; exact hu (.inr (rs.mp h)))]
    generalize ho : (⟨issuer, version, 3600000, period nb (na.getD (nb + 365 * 86400))⟩ : CertOpts) = o
    refine ex_bind (Q1 := fun r w' t' => Done C w s.tpm (.certGen signId info issuer nb na period version req) (r.map fun d => (0, .data d)) w' t') ?_
      (fun d w' s' hs' hq => ex_pure hs' _ hq) (fun e w' t' hq => hq)
    have no : ¬ ((C.keyType req.pub).isSome ∧ (∃ k, CertName k req.name)) →
        Ex R (TT C) s (raise .invalid : KM σ K DObj) (fun r w' t' => Done C w s.tpm (.certGen signId info issuer nb na period version req) (r.map fun d => (0, .data d)) w' t') := by
      intro hn
      refine ex_raise hs _ ⟨⟨rfl, ?_⟩, inv⟩
      rw [if_neg hu, if_neg hn]; rfl
    unfold makeCertFor
    cases hk : C.keyType req.pub with
    | none => exact no (fun h => by rw [hk] at h; cases h.1)
    | some ty =>
      cases hn : keyOf req.name with
      | none =>
        refine no (fun h => ?_)
        obtain ⟨-, k, hk'⟩ := h
        rw [(keyOf_iff _ _).mpr hk'] at hn; cases hn
      | some k =>
        have hc := (keyOf_iff _ _).mp hn
        dsimp only
        refine (good_certPacket F W hs inv k req.pub (issuerInfo signId info) o).mono ?_
        rintro r w' t' ⟨h1, h2⟩
        have hty : (issuerInfo signId info : SInfo K).type ≠ .hmac := by cases signId <;> cases info <;> (intro h; cases h)
        have hal : (issuerInfo signId info : SInfo K).alg = .sha256 := by cases signId <;> cases info <;> rfl
        have hin : (SObj.addCustom ⟨none, (issuerInfo signId info : SInfo K).info⟩ o.validity).s = ⟨none, none, withCustom info.toList o.validity⟩ := by
          rw [← custom_parts]
          cases signId <;> cases info <;> rfl
        obtain ⟨⟨h3, h3'⟩, h4, h5, h6⟩ := issues_of co (consistent_of inv) hc.2 h1 (by rw [← ho]; show (0:Int) < 3600000; decide) hty hal
        refine ⟨⟨?_, ?_⟩, h2⟩
        · show (⟨w'.v, t'.priv⟩ : Store K) = ⟨w.v, s.tpm.priv⟩
          rw [show w'.v = w.v from h3, show t'.priv = s.tpm.priv from h3']
        · rw [if_neg hu, if_pos ⟨by rw [hk]; rfl, k, hc⟩]
          refine ⟨k, hc, ?_⟩
          rw [ho]
          dsimp only
          have key : ∀ m, Signer w (issuerInfo signId info : SInfo K) m (locator w.v m) → (w.v.key m).isSome → ∃ bits, w.v.key m = some bits ∧
              Issues C (certFields k req.pub o) (certInfo C w.v m bits (withCustom info.toList o.validity)) (fun u sig => C.verify bits u sig = true)
                (exitOf (r.map fun d => (0, .data d))) := by
            intro m hs1 hm
            obtain ⟨bits, hb⟩ := Option.isSome_iff_exists.mp hm
            have := h4 m _ bits hs1 hb
            unfold keyInfo at this
            rw [hin] at this
            exact ⟨bits, hb, this⟩
          cases signId with
          | some i =>
            dsimp only
            have hi : ∀ j, IdentGiven w (issuerInfo (some i) info : SInfo K) j ↔ j = i ∧ w.v.ident i = true := by
              intro j
              have e1 : (issuerInfo (some i) info : SInfo K).ident = none := by cases info <;> rfl
              have e2 : (issuerInfo (some i) info : SInfo K).name = i := by cases info <;> rfl
              unfold IdentGiven
              rw [e1, e2]
              constructor
              · rintro (⟨h, h', -⟩ | ⟨-, rfl, h⟩)
                · cases h'
                · exact ⟨rfl, h⟩
              · rintro ⟨rfl, h⟩
                exact .inr ⟨fun ⟨h, j, h', _⟩ => (by cases h'), rfl, h⟩
            have et : (issuerInfo (some i) info : SInfo K).type = .ident := by cases info <;> rfl
            cases hd : w.v.defKey i with
            | some m =>
              dsimp only
              obtain ⟨a1, a2⟩ := co.key _ _ hd
              obtain ⟨j, a3, a4⟩ := co.parent _ a1
              exact key m (.ident et ((hi i).mpr ⟨rfl, by rw [← keyName_identity a3 a2]; exact a4⟩) hd) a1
            | none =>
              dsimp only
              rw [if_neg (by simp)]
              refine h6 ?_ ?_
              · intro m loc hm
                cases hm with
                | default a1 _ _ => rw [et] at a1; cases a1
                | ident a1 a2 a3 => rw [((hi _).mp a2).1, hd] at a3; cases a3
                | key a1 _ => rw [et] at a1; cases a1
                | cert a1 _ _ => rw [et] at a1; cases a1
              · rintro (a1 | ⟨a1, -⟩)
                · rw [et] at a1; cases a1
                · rw [et] at a1; cases a1
          | none =>
            dsimp only
            have et : (issuerInfo none info : SInfo K).type = .null := by cases info <;> rfl
            cases hdi : w.v.defIdent with
            | none =>
              dsimp only [Option.bind_none]
              rw [if_pos ⟨rfl, rfl⟩]
              have := h5 (.inr ⟨et, hdi⟩)
              unfold digestInfo at this
              rw [hin] at this
              exact this
            | some i =>
              rw [Option.bind_some]
              cases hd : w.v.defKey i with
              | some m =>
                dsimp only
                exact key m (.default et hdi hd) (co.key _ _ hd).1
              | none =>
                dsimp only
                rw [if_neg (by simp)]
                refine h6 ?_ ?_
                · intro m loc hm
                  cases hm with
                  | default a1 a2 a3 => rw [hdi] at a2; injection a2 with a2; subst a2; rw [hd] at a3; cases a3
                  | ident a1 _ _ => rw [et] at a1; cases a1
                  | key a1 _ => rw [et] at a1; cases a1
                  | cert a1 _ _ => rw [et] at a1; cases a1
                · rintro (a1 | ⟨-, a1⟩)
                  · rw [et] at a1; cases a1
                  · rw [hdi] at a1; cases a1

/-! ## All -/

/-- What is known of the states passed on the way. -/
def cmdT (C : Crypto K) (cmd : Cmd K) : View → List (PName × Option K) → Prop := fun v keys => ¬ DeletesIdent cmd → TT C v keys

theorem ex_command (W : Works C) (cmd : Cmd K) (hf : CmdFits C (storeOf w s.tpm) cmd) :
    Ex R (cmdT C cmd) s (command C b cmd) (Done C w s.tpm cmd) := by
  have tr : ∀ v keys, TT C v keys → cmdT C cmd v keys := fun _ _ h _ => h
  cases cmd with
  | delete k c n =>
    cases k <;> cases c
    · exact (ex_deleteIdentCmd F hs inv n).trail (fun _ _ _ hn => absurd ⟨n, rfl⟩ hn)
    · exact (ex_deleteCert F hs inv n).trail tr
    · exact (ex_deleteKeyCmd F hs inv n).trail tr
    · refine ex_pure hs _ ⟨?_, inv⟩
      simp only [CmdStep]
      rw [if_pos ⟨by first | rfl | trivial, by first | rfl | trivial⟩]; exact ⟨rfl, by first | rfl | trivial⟩
  | setDefault k c n =>
    cases k <;> cases c
    · exact (ex_setDefaultIdentCmd F hs inv n).trail tr
    · exact (ex_setDefaultCertCmd F hs inv n).trail tr
    · exact (ex_setDefaultKeyCmd F hs inv n).trail tr
    · refine ex_pure hs _ ⟨?_, inv⟩
      simp only [CmdStep]
      rw [if_pos ⟨by first | rfl | trivial, by first | rfl | trivial⟩]; exact ⟨rfl, by first | rfl | trivial⟩
  | getDefault k c i key => exact (ex_getDefaultCmd F hs inv k c i key).trail tr
  | keyGen n d t kt kid e => exact (ex_keyGenCmd F hs inv W n d t kt kid e hf).trail tr
  | certInstall i k d c => exact (ex_certInstallCmd F hs inv i k d c hf).trail tr
  | import_ c enc pw msg => exact (ex_importCmd F hs inv c enc pw msg hf).trail tr
  | signReq k n v p => exact (ex_signReqCmd F hs inv W k n v p).trail tr
  | certGen sg inf iss nb na p v req => exact (ex_certGenCmd F hs inv W sg inf iss nb na p v req).trail tr
  | certDump i k n => exact (ex_certDumpCmd F hs inv i k n).trail tr

end Ndn.Ndnsec
