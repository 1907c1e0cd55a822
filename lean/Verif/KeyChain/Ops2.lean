import Verif.KeyChain.Ops
namespace Ndn.KeyChain
open Ndn.Name Ndn.Tlv Ndn.Block Ndn.Packet Ndn.Pib Ndn.Pib.Spec Ndn.KeyChain.Spec

variable {σ K α β : Type} {b : Backend σ} {R : σ → View → Prop} {A : View → PName → Prop}
  {T : View → List (PName × Option K) → Prop} {s : St σ K} {w : World} {C : Crypto K}

/-! ## Creating an identity -/

theorem withIdent_self (v : View) (n : PName) : (withIdent v n).ident n = true := by
  unfold withIdent
  split
  · assumption
  · simp [View.addIdent, upd]

theorem priv_put {t t' : Tpm K} {n : PName} {k : Option K} (h : t'.keys = put n k t.keys) : t'.priv = upd t.priv n (some k) := by
  funext m
  simp only [Tpm.priv, upd]
  rw [h, get_put]

theorem priv_keys {t t' : Tpm K} (h : t'.keys = t.keys) : t'.priv = t.priv := by unfold Tpm.priv; rw [h]

theorem ex_createIdentity (F : Faithful b R A) (W : Works C) (hs : Sim R s.pib w) (inv : Inv C w s.tpm) (e : Env K) (n : PName) (id : KeyId)
    (fr : w.v.defKey n = none → Fresh C n id e.gen s.tpm.priv) {Q : Except Err Nat → World → Tpm K → Prop}
    (h1 : ∀ h w' t', w'.hs h = .alive (.ident n) → Ready w'.v n → Grows w.v w'.v → Live w w' → IdentMade C w.v s.tpm.priv n id e w'.v t'.priv →
      Inv C w' t' → Q (.ok h) w' t')
    (h2 : ∀ er w' t', ¬ Ready w.v n → ¬ IdentPossible C w.v n id e s.tpm.priv → Grows w.v w'.v → Live w w' → KeysGrow s.tpm.keys t'.keys → Inv C w' t' → Q (.error er) w' t') :
    Ex R (TT C) s (createIdentity C b e n id) Q := by
  unfold createIdentity
  have tt1 : TT C (withIdent w.v n) s.tpm.keys := inv.t.congr (withIdent_key _ _) (withIdent_cert _ _)
  refine ex_bind (Q1 := fun r w' t => t = s.tpm ∧ ∃ h, r = .ok h ∧ w'.v = withIdent w.v n ∧ w'.hs h = .alive (.ident n) ∧ Live w w')
    (ex_addIdentity F hs n tt1 (fun h w' a1 a2 a3 => ⟨rfl, h, rfl, a1, a2, a3⟩)) ?_ ?_
  · rintro h w1 s1 hs1 ⟨ht1, h', e', hv1, hh, lv1⟩
    injection e' with e'; subst e'
    have inv1 : Inv C w1 s1.tpm := ⟨by rw [ht1]; exact inv.cache, by rw [hv1, ht1]; exact tt1.1, by rw [hv1]; exact tt1.2⟩
    have gr1 : Grows w.v w1.v := by rw [hv1]; exact .withIdent _ _
    have hdk : w1.v.defKey = w.v.defKey := by rw [hv1, withIdent_defKey]
    have hdc : w1.v.defCert = w.v.defCert := by rw [hv1, withIdent_defCert]
    have hkk : w1.v.key = w.v.key := by rw [hv1, withIdent_key]
    have hid : w1.v.ident n = true := by rw [hv1]; exact withIdent_self _ _
    refine ex_bind (Q1 := fun r w' t => Inv C w' t ∧ Grows w1.v w'.v ∧ Live w w' ∧ KeysGrow s.tpm.keys t.keys ∧
      ((∃ er, r = .error er ∧ ¬ Ready w.v n ∧ ¬ IdentPossible C w.v n id e s.tpm.priv) ∨ ∃ x k, r = .ok x ∧ w'.hs h = .alive (.ident n) ∧ w'.hs x = .alive (.key k) ∧ w'.v.defKey n = some k ∧
        (w.v.defKey n = some k ∧ w'.v = w1.v ∧ t.keys = s.tpm.keys ∨
          w.v.defKey n = none ∧ (w'.v.defCert k).isSome ∧ IdentMade C w.v s.tpm.priv n id e w'.v t.priv))) ?_ ?_ ?_
    · refine ex_orPib (Q1 := fun r w' t => t = s1.tpm ∧ ((∃ x k, r = .ok x ∧ Same w1 w' ∧ w1.v.defKey n = some k ∧ w'.hs x = .alive (.key k)) ∨
          r = .error .pib ∧ w' = w1 ∧ w1.v.defKey n = none))
        (ex_getDefaultKey F hs1 hh inv1.t (fun x k w' a1 a2 a3 => ⟨rfl, .inl ⟨x, k, rfl, a2, a1, a3⟩⟩) (fun a1 => ⟨rfl, .inr ⟨rfl, rfl, a1⟩⟩)) ?_ ?_
      · rintro w2 s2 hs2 ⟨ht2, ⟨x, k, e', -⟩ | ⟨-, rfl, hn⟩⟩
        · cases e'
        · have inv2 : Inv C w2 s2.tpm := by rw [ht2]; exact inv1
          have hn' : w.v.defKey n = none := by rw [← hdk]; exact hn
          refine ex_createKey F W hs2 inv2 e id hh (by rw [ht2, ht1]; exact fr hn') ?_ ?_
          · rintro kh w' t' ⟨k, p, c, a1, a2, a3, a4, a5, a6, a7, a8, a9, a10, a11⟩ hinv
            have kc : c.keyName = k := crt_keyName a5
            have hkn := nameFor_key a1
            rw [ht2, ht1] at a3 a9
            refine ⟨hinv, ?_, fun x r h => a10 _ _ (lv1 x r h), ?_, .inr ⟨kh, k, rfl, a10 _ _ hh, a7, ?_, .inr ⟨hn', ?_, ?_⟩⟩⟩
            · rw [a8]
              refine (Grows.addKey _ _ _ _ (.inl a2)).trans (.addCert _ _ ?_)
              rw [kc, a6]; simp [View.addKey, upd]
            · rw [a9]; exact keysGrow_put _ a3
            · rw [a8]
              have hci : c.identity = n := keyName_inj (crt_identity a5) hkn
              simp only [View.addCert, View.addKey, upd, kc, hci, if_true, orElse, hn, Option.getD_none, Option.getD_some]
            · rw [a8]
              simp only [View.addCert, upd, kc, if_true, orElse]; rfl
            · unfold IdentMade
              rw [hn']
              exact ⟨k, p, c, a1, by rw [← hv1]; exact a2, a3, a4, a5, a6, a11, by rw [a8, hv1], priv_put a9⟩
          · intro er w' t' _ hnp hgr hlv hkg hinv
            rw [ht2, ht1] at hkg hnp
            refine ⟨hinv, hgr, fun x r h => hlv _ _ (lv1 x r h), hkg, .inl ⟨er, rfl, ?_, by unfold IdentPossible; rw [hn']; exact hnp⟩⟩
            rintro ⟨-, k, c, h1, -⟩
            rw [hn'] at h1; cases h1
      · rintro r w2 t2 hr ⟨ht2, ⟨x, k, e', hsm, hk, hx⟩ | ⟨e', -⟩⟩
        · refine ⟨inv1.same hsm ht2, by rw [hsm.v]; exact .refl _, fun x r h => hsm.live _ _ (lv1 x r h), by rw [ht2, ht1]; exact fun _ _ h => h,
            .inr ⟨x, k, e', hsm.live _ _ hh, hx, by rw [hsm.v]; exact hk, .inl ⟨by rw [← hdk]; exact hk, hsm.v, by rw [ht2, ht1]⟩⟩⟩
        · exact absurd e' hr
    · rintro x w2 s2 hs2 ⟨inv2, gr2, lv2, kg2, ⟨er, e', -⟩ | ⟨x', k, e', hh2, hx, hk, hc⟩⟩
      · cases e'
      · injection e' with e'; subst e'
        have hid2 : w2.v.ident n = true := gr2.ident _ hid
        have hnr : w2.v.defCert k = none → w.v.defKey n = some k ∧ w2.v = w1.v ∧ s2.tpm.keys = s.tpm.keys ∧ ¬ Ready w.v n := by
          intro hd
          rcases hc with ⟨c1, c2, c3⟩ | ⟨c1, c2, -⟩
          · refine ⟨c1, c2, c3, ?_⟩
            rintro ⟨-, k', c', b1, b2⟩
            rw [b1] at c1; injection c1 with c1; subst c1
            rw [c2, hdc, b2] at hd; cases hd
          · rw [hd] at c2; cases c2
        refine ex_bind (Q1 := fun r w' t => Inv C w' t ∧ Grows w2.v w'.v ∧ Live w w' ∧ t.keys = s2.tpm.keys ∧
          ((∃ er, r = .error er ∧ ¬ Ready w.v n ∧ ¬ IdentPossible C w.v n id e s.tpm.priv) ∨ r = .ok () ∧ w'.hs h = .alive (.ident n) ∧ (w'.v.defCert k).isSome ∧
            ((w2.v.defCert k).isSome ∧ w'.v = w2.v ∨ w2.v.defCert k = none ∧ ∃ c, CertName k c.name ∧ w2.v.key k = some c.pub ∧ SelfSigned C k e c ∧ w'.v = w2.v.addCert c))) ?_ ?_ ?_
        · refine ex_orPib (Q1 := fun r w' t => t = s2.tpm ∧ w' = w2 ∧ ((r = .ok () ∧ (w2.v.defCert k).isSome) ∨ r = .error .pib ∧ w2.v.defCert k = none)) ?_ ?_ ?_
          · refine ex_bind (Q1 := fun r w' t => w' = w2 ∧ t = s2.tpm ∧ ((∃ c : Crt, r = .ok c ∧ (w2.v.defCert k).isSome) ∨ r = .error .pib ∧ w2.v.defCert k = none))
              (ex_getDefaultCert F hs2 hx inv2.t (fun c h1 _ => ⟨rfl, rfl, .inl ⟨c, rfl, by rw [h1]; rfl⟩⟩) (fun h => ⟨rfl, rfl, .inr ⟨rfl, h⟩⟩)) ?_ ?_
            · rintro a w3 s3 hs3 ⟨rfl, ht, ⟨c, e', hd⟩ | ⟨e', -⟩⟩
              · exact ex_pure hs3 _ ⟨ht, rfl, .inl ⟨rfl, hd⟩⟩
              · cases e'
            · rintro er w3 t3 ⟨rfl, ht, ⟨c, e', -⟩ | ⟨e', hd⟩⟩
              · cases e'
              · injection e' with e'; subst e'; exact ⟨ht, rfl, .inr ⟨rfl, hd⟩⟩
          · rintro w3 s3 hs3 ⟨ht3, rfl, ⟨e', -⟩ | ⟨-, hd⟩⟩
            · cases e'
            · have inv3 : Inv C w3 s3.tpm := by rw [ht3]; exact inv2
              refine ex_selfSign F W hs3 inv3 e hx hd ?_ ?_
              · intro c w' t' a1 a2 a6 a3 a4 a5
                have hkc : w3.v.key c.keyName = some c.pub := by rw [crt_keyName a1]; exact a2
                have := inv3.t.addCert hkc
                refine ⟨⟨a5.cache, by rw [a3, a5.keys]; exact this.1, by rw [a3]; exact this.2⟩, by rw [a3]; exact .addCert _ _ hkc,
                  fun x r h => a4 _ _ (lv2 x r h), by rw [a5.keys, ht3], .inr ⟨rfl, a4 _ _ hh2, ?_,   .inr ⟨hd, c, a1, a2, a6, a3⟩⟩⟩
                rw [a3]
                simp only [View.addCert, upd, crt_keyName a1, if_true, orElse]; rfl
              · intro er w' t' _ a1 a2 a3
                refine ⟨inv3.move a1.v a2, by rw [a1.v]; exact .refl _, fun x r h => a1.live _ _ (lv2 x r h), by rw [a2.keys, ht3], .inl ⟨er, rfl, (hnr hd).2.2.2, ?_⟩⟩
                intro hpo
                unfold IdentPossible at hpo
                rw [(hnr hd).1] at hpo
                dsimp only at hpo
                obtain ⟨bits, hbits⟩ := Option.isSome_iff_exists.mp (alive_key hs3 hx)
                exact a3 bits hbits (hpo bits (by rw [← hkk, ← (hnr hd).2.1]; exact hbits))
          · rintro r w3 t3 hr ⟨ht3, rfl, ⟨e', hd⟩ | ⟨e', -⟩⟩
            · exact ⟨by rw [ht3]; exact inv2, .refl _, lv2, by rw [ht3], .inr ⟨e', hh2, hd, .inl ⟨hd, rfl⟩⟩⟩
            · exact absurd e' hr
        · rintro _ w3 s3 hs3 ⟨inv3, gr3, lv3, tk3, ⟨er, e', -⟩ | ⟨-, hh3, hd3, hx3⟩⟩
          · cases e'
          · obtain ⟨c, hc3⟩ := Option.isSome_iff_exists.mp hd3
            refine ex_pure hs3 _ (h1 h _ _ hh3 ⟨gr3.ident _ hid2, k, c, gr3.defKey _ _ hk, hc3⟩ ((gr1.trans gr2).trans gr3) lv3 ?_ inv3)
            rcases hx3 with ⟨hx4, hx3⟩ | ⟨hx4, c', hx5, hx6, hx8, hx7⟩
            · rcases hc with ⟨c1, c2, c3⟩ | ⟨-, -, c3⟩
              · unfold IdentMade
                rw [c1]
                refine ⟨priv_keys (tk3.trans c3), ?_⟩
                rw [c2, hdc] at hx4
                split
                · rw [hx3, c2, hv1]
                · rename_i e'; rw [e'] at hx4; cases hx4
              · rw [hx3, priv_keys tk3]; exact c3
            · obtain ⟨b1, b2, b3, -⟩ := hnr hx4
              rw [b2] at hx4 hx6 hx7
              unfold IdentMade
              rw [b1]
              refine ⟨priv_keys (tk3.trans b3), ?_⟩
              rw [hdc] at hx4
              rw [hkk] at hx6
              rw [hx4]
              exact ⟨c', hx5, hx6, hx8, by rw [hx7, hv1]⟩
        · rintro er w3 t3 ⟨inv3, gr3, lv3, tk3, ⟨er', e', hnr'⟩ | ⟨e', -⟩⟩
          · exact h2 _ _ _ hnr'.1 hnr'.2 ((gr1.trans gr2).trans gr3) lv3 (by rw [tk3]; exact kg2) inv3
          · cases e'
    · rintro er w2 t2 ⟨inv2, gr2, lv2, kg2, ⟨er', e', hnr⟩ | ⟨x, k, e', -⟩⟩
      · exact h2 _ _ _ hnr.1 hnr.2 (gr1.trans gr2) lv2 kg2 inv2
      · cases e'
  · rintro er w1 t1 ⟨-, h, e', -⟩; cases e'

/-! ## Deleting -/

theorem ex_tpmDeleteAll (hs : Sim R s.pib w) (hT : ∀ keys, T w.v keys) : ∀ (l : List PName) (s : St σ K), Sim R s.pib w → CacheOk s.tpm →
    Ex R T s (tpmDeleteAll l) (fun r w' t => r = .ok () ∧ w' = w ∧ CacheOk t ∧ ∀ n, get n t.keys = if n ∈ l then none else get n s.tpm.keys) := by
  intro l
  induction l with
  | nil => intro s hs hc; exact ex_pure hs _ ⟨rfl, rfl, hc, fun n => by simp⟩
  | cons n ns ih =>
    intro s hs hc
    refine ex_bind (Q1 := fun r w' t => r = .ok () ∧ w' = w ∧ t = ⟨del n s.tpm.keys, del n s.tpm.cache⟩)
      (ex_tpmDelete hs n (hT _) ⟨rfl, rfl, rfl⟩) ?_ ?_
    · rintro _ w1 s1 hs1 ⟨-, rfl, ht⟩
      refine (ih s1 hs1 (by rw [ht]; exact hc.del n)).mono ?_
      rintro r w' t ⟨a1, a2, a3, a4⟩
      refine ⟨a1, a2, a3, fun m => ?_⟩
      rw [a4, ht]
      dsimp only
      rw [get_del]
      by_cases h1 : m ∈ ns
      · simp [h1]
      · by_cases h2 : m = n
        · simp [h2]
        · simp [h1, h2]
    · rintro e w1 t1 ⟨e', -⟩; cases e'

theorem ex_deleteIdentity (F : Faithful b R A) (hs : Sim R s.pib w) (inv : Inv C w s.tpm) (h : Nat) {Q : Except Err Unit → World → Tpm K → Prop}
    (h1 : ∀ i w' t', w.hs h = .alive (.ident i) → w' = ⟨w.v.removeIdent i, kill w.hs (below i)⟩ →
      (∀ n, KeyName i n → (w.v.key n).isSome → get n t'.keys = none) →
      (∀ n, ¬ (KeyName i n ∧ (w.v.key n).isSome) → get n t'.keys = get n s.tpm.keys) → Inv C w' t' → Q (.ok ()) w' t')
    (h2 : identOf w h = none → Q (.ok ()) w s.tpm) : Ex R (fun _ _ => True) s (deleteIdentity b h) Q := by
  unfold deleteIdentity
  refine ex_bindAt (at_identValid hs h) ?_
  cases hi : identOf w h with
  | none => exact ex_pure hs _ (h2 hi)
  | some i =>
    simp only [Option.isSome_some, if_true]
    have hh := identOf_iff.mp hi
    refine exb_identName F hs trivial hh (fun s1 hs1 ht1 => ?_)
    refine ex_bind (Q1 := fun r w' t => w' = w ∧ t = s.tpm ∧ ∃ l, r = .ok l ∧ ∀ k, k ∈ l ↔ KeyName i k ∧ (w.v.key k).isSome)
      (ex_keys F hs1 hh trivial (fun l hl => ⟨rfl, ht1, l, rfl, hl⟩)) ?_ ?_
    · rintro l w2 s2 hs2 ⟨rfl, ht2, l', e', hl⟩
      injection e' with e'; subst e'
      refine ex_bind (ex_tpmDeleteAll hs2 (fun _ => trivial) l s2 hs2 (by rw [ht2]; exact inv.cache)) ?_ ?_
      · rintro _ w3 s3 hs3 ⟨-, rfl, hc3, hk3⟩
        have co := (F.rep hs.rep).coh
        have hk1 : ∀ n, KeyName i n → (w3.v.key n).isSome → get n s3.tpm.keys = none := by
          intro n h1 h2
          rw [hk3 n, if_pos ((hl n).mpr ⟨h1, h2⟩)]
        have hk' : ∀ n, ¬ (KeyName i n ∧ (w3.v.key n).isSome) → get n s3.tpm.keys = get n s.tpm.keys := by
          intro n h1
          rw [hk3 n, if_neg (fun h => h1 ((hl n).mp h)), ht2]
        refine ex_done F hs3 (.removeIdentity i) trivial trivial (fun _ _ e => by cases e) (fun _ _ _ => trivial) ?_
        rintro out w' ⟨rfl, rfl⟩
        refine h1 i _ _ hh rfl hk1 hk' ⟨hc3, ?_, (inv.t.removeIdent co i).2⟩
        intro k bits e
        obtain ⟨x, hx, hm⟩ := (inv.t.removeIdent co i).1 k bits e
        refine ⟨x, ?_, hm⟩
        rw [hk']
        · exact hx
        · rintro ⟨hkn, -⟩
          simp only [View.removeIdent, isKeyOf, (identityOf_iff _ _).mpr hkn, decide_true, if_true] at e
          cases e
      · rintro e w3 t3 ⟨e', -⟩; cases e'
    · rintro e w3 t3 ⟨-, -, l, e', -⟩; cases e'

theorem ex_deleteKey (F : Faithful b R A) (hs : Sim R s.pib w) (inv : Inv C w s.tpm) (h k : Nat) (hA : ∀ n, w.hs k = .alive (.key n) → A w.v n)
    {Q : Except Err Unit → World → Tpm K → Prop}
    (h1 : ∀ i n w' t', w.hs h = .alive (.ident i) → w.hs k = .alive (.key n) → KeyName i n → w' = ⟨w.v.removeKey n, kill w.hs (theKey n)⟩ →
      t' = ⟨del n s.tpm.keys, del n s.tpm.cache⟩ → Inv C w' t' → Q (.ok ()) w' t')
    (h2 : (identOf w h).isSome → keyOfH w k = none → Q (.ok ()) w s.tpm)
    (h3 : ∀ e, (identOf w h = none ∨ ∃ n, w.hs k = .alive (.key n)) →
      (∀ i n, w.hs h = .alive (.ident i) → w.hs k = .alive (.key n) → ¬ KeyName i n) → Q (.error e) w s.tpm) :
    Ex R (TT C) s (deleteKey b h k) Q := by
  unfold deleteKey
  refine ex_bindAt (at_identValid hs h) ?_
  cases hi : identOf w h with
  | none =>
    refine ex_raise hs _ (h3 _ (.inl hi) ?_)
    intro i n hx; rw [identOf_iff.mpr hx] at hi; cases hi
  | some i =>
    simp only [Option.isSome_some, if_true]
    have hh := identOf_iff.mp hi
    refine ex_bindAt (at_keyValid hs k) ?_
    cases hk : keyOfH w k with
    | none => exact ex_pure hs _ (h2 (by rw [hi]; rfl) hk)
    | some n =>
      simp only [Option.isSome_some, if_true]
      have hkk := keyOfH_iff.mp hk
      refine exb_keyName F hs inv.t hkk (fun s1 hs1 ht1 => ?_)
      have inv1 : Inv C w s1.tpm := by rw [ht1]; exact inv
      have co := (F.rep hs.rep).coh
      dsimp only [List.headD_cons]
      have stp : ∀ out w', Step w (.removeKey h n) out w' → (KeyName i n ∧ out = .done ∧ w' = ⟨w.v.removeKey n, kill w.hs (theKey n)⟩) ∨
          (¬ KeyName i n ∧ out = .invalid ∧ w' = w) := by
        intro out w' hst
        simp only [Step, onIdent, hh] at hst
        split at hst
        · rename_i hx; exact .inl ⟨hx, hst⟩
        · rename_i hx; exact .inr ⟨hx, hst⟩
      refine ex_bind (Q1 := fun r w' t => t = s.tpm ∧ ((KeyName i n ∧ r = .ok () ∧ w' = ⟨w.v.removeKey n, kill w.hs (theKey n)⟩) ∨
          (¬ KeyName i n ∧ (∃ e, r = .error e) ∧ w' = w))) ?_ ?_ ?_
      · refine ex_done F hs1 (.removeKey h n) trivial trivial (fun _ _ e => by injection e with e1 e2; subst e2; exact hA _ hkk) ?_ ?_
        · intro out w' hst
          rcases stp out w' hst with ⟨-, -, rfl⟩ | ⟨-, -, rfl⟩
          · exact inv1.t.removeKey co n
          · exact inv1.t
        · intro out w' hst
          rcases stp out w' hst with ⟨a, rfl, rfl⟩ | ⟨a, rfl, rfl⟩
          · exact ⟨ht1, .inl ⟨a, rfl, rfl⟩⟩
          · exact ⟨ht1, .inr ⟨a, ⟨_, rfl⟩, rfl⟩⟩
      · rintro _ w2 s2 hs2 ⟨ht2, ⟨hkn, -, hw⟩ | ⟨-, ⟨e, e'⟩, -⟩⟩
        · have tt : TT C w2.v s.tpm.keys := by rw [hw]; exact inv.t.removeKey co n
          have hno : w2.v.key n = none := by rw [hw]; simp [View.removeKey, upd]
          refine ex_tpmDelete hs2 n ⟨by rw [ht2]; exact tt.1.del hno, tt.2⟩ (h1 i n _ _ hh hkk hkn hw (by rw [ht2]) ⟨?_, ?_, tt.2⟩)
          · rw [ht2]; exact inv.cache.del n
          · rw [ht2]; exact tt.1.del hno
        · cases e'
      · rintro e w2 t2 ⟨ht2, ⟨-, e', -⟩ | ⟨hn, -, rfl⟩⟩
        · cases e'
        · rw [ht2]
          refine h3 _ (.inr ⟨n, hkk⟩) ?_
          intro i' n' a1 a2
          rw [hh] at a1; injection a1 with a1; injection a1 with a1; subst a1
          rw [hkk] at a2; injection a2 with a2; injection a2 with a2; subst a2
          exact hn

/-! ## Defaults and certificates -/

theorem ex_setDefaultIdentity (F : Faithful b R A) (hs : Sim R s.pib w) (inv : Inv C w s.tpm) (h : Nat) {Q : Except Err Unit → World → Tpm K → Prop}
    (h1 : ∀ i w', w.hs h = .alive (.ident i) → w'.v = { withIdent w.v i with defIdent := some i } → (∀ x r, w.hs x = .alive r → w'.hs x = .alive r) →
      Inv C w' s.tpm → Q (.ok ()) w' s.tpm)
    (h2 : identOf w h = none → Q (.error .ub) w s.tpm) : Ex R (TT C) s (setDefaultIdentity b h) Q := by
  unfold setDefaultIdentity
  refine ex_bindAt (at_identValid hs h) ?_
  cases hi : identOf w h with
  | none => exact ex_raise hs _ (h2 hi)
  | some i =>
    simp only [Option.isSome_some, if_true]
    have hh := identOf_iff.mp hi
    refine exb_identName F hs inv.t hh (fun s1 hs1 ht1 => ?_)
    have tt : TT C { withIdent w.v i with defIdent := some i } s.tpm.keys := inv.t.congr (withIdent_key _ _) (withIdent_cert _ _)
    refine ex_done F hs1 (.setDefaultIdentity i) trivial trivial (fun _ _ e => by cases e) ?_ ?_
    · rintro out w' ⟨x, -, -, rfl⟩; rw [ht1]; exact tt
    · rintro out w' ⟨x, rfl, hx, rfl⟩
      rw [ht1]
      exact h1 i _ hh rfl (issue_live hx) ⟨inv.cache, tt.1, tt.2⟩

theorem ex_setDefaultKey (F : Faithful b R A) (hs : Sim R s.pib w) (inv : Inv C w s.tpm) (h k : Nat) {Q : Except Err Unit → World → Tpm K → Prop}
    (h1 : ∀ i n w', w.hs h = .alive (.ident i) → w.hs k = .alive (.key n) → KeyName i n → w'.v = { w.v with defKey := upd w.v.defKey i (some n) } →
      (∀ x r, w.hs x = .alive r → w'.hs x = .alive r) → Inv C w' s.tpm → Q (.ok ()) w' s.tpm)
    (h2 : ∀ e, (∀ i n, w.hs h = .alive (.ident i) → w.hs k = .alive (.key n) → ¬ KeyName i n) → Q (.error e) w s.tpm) :
    Ex R (TT C) s (setDefaultKey b h k) Q := by
  unfold setDefaultKey
  refine ex_bindAt (at_identValid hs h) ?_
  cases hi : identOf w h with
  | none =>
    refine ex_raise hs _ (h2 _ ?_)
    intro i n hx; rw [identOf_iff.mpr hx] at hi; cases hi
  | some i =>
    simp only [Option.isSome_some, if_true]
    have hh := identOf_iff.mp hi
    refine ex_bindAt (at_keyValid hs k) ?_
    cases hk : keyOfH w k with
    | none =>
      refine ex_raise hs _ (h2 _ ?_)
      intro i n _ hx; rw [keyOfH_iff.mpr hx] at hk; cases hk
    | some n =>
      simp only [Option.isSome_some, if_true]
      have hkk := keyOfH_iff.mp hk
      have hex : (w.v.key n).isSome := by
        obtain ⟨o, ho, -, hn⟩ := hs.keyAll _ _ hkk
        rw [← hn, (hs.keyOk o ho).bits]; rfl
      refine exb_keyName F hs inv.t hkk (fun s1 hs1 ht1 => ?_)
      have tt : TT C { w.v with defKey := upd w.v.defKey i (some n) } s.tpm.keys := inv.t.congr rfl rfl
      have stp : ∀ out w', Step w (.setDefaultKey h n) out w' → (KeyName i n ∧ GivesKey { w.v with defKey := upd w.v.defKey i (some n) } w.hs n out w') ∨
          (¬ KeyName i n ∧ out = .invalid ∧ w' = w) := by
        intro out w' hst
        by_cases hx : KeyName i n
        · simp only [Step, onIdent, hh, if_pos hx] at hst
          split at hst
          · exact .inl ⟨hx, hst⟩
          · rename_i hno; exact absurd hex hno
        · simp only [Step, onIdent, hh, if_neg hx] at hst
          exact .inr ⟨hx, hst⟩
      refine ex_done F hs1 (.setDefaultKey h n) trivial trivial (fun _ _ e => by cases e) ?_ ?_
      · intro out w' hst
        rcases stp out w' hst with ⟨-, x, -, -, rfl⟩ | ⟨-, -, rfl⟩
        · rw [ht1]; exact tt
        · rw [ht1]; exact inv.t
      · intro out w' hst
        rw [ht1]
        rcases stp out w' hst with ⟨a, x, rfl, hx, rfl⟩ | ⟨a, rfl, rfl⟩
        · exact h1 i n _ hh hkk a rfl (issue_live hx) ⟨inv.cache, tt.1, tt.2⟩
        · refine h2 _ ?_
          intro i' n' a1 a2
          rw [hh] at a1; injection a1 with a1; injection a1 with a1; subst a1
          rw [hkk] at a2; injection a2 with a2; injection a2 with a2; subst a2
          exact a

theorem ex_onKey (F : Faithful b R A) (hs : Sim R s.pib w) (inv : Inv C w s.tpm) (k : Nat) (op : FOp) (hr : Real op)
    (hA : ∀ x n, op ≠ .removeKey x n) (hf : ∀ n, w.hs k = .alive (.key n) → Fits w op)
    (hst : ∀ n out w', w.hs k = .alive (.key n) → Step w op out w' → TT C w'.v s.tpm.keys)
    {Q : Except Err Unit → World → Tpm K → Prop}
    (h1 : ∀ n out w', w.hs k = .alive (.key n) → Step w op out w' → Inv C w' s.tpm → Q (match outErr out with | some e => .error e | none => .ok ()) w' s.tpm)
    (h2 : keyOfH w k = none → Q (.error .ub) w s.tpm) : Ex R (TT C) s (onKeyHandle b k op) Q := by
  unfold onKeyHandle
  refine ex_bindAt (at_keyValid hs k) ?_
  cases hk : keyOfH w k with
  | none => exact ex_raise hs _ (h2 hk)
  | some n =>
    simp only [Option.isSome_some, if_true]
    have hkk := keyOfH_iff.mp hk
    refine ex_done F hs op hr (hf n hkk) (fun x y e => absurd e (hA x y)) (fun out w' h => hst n out w' hkk h) ?_
    intro out w' h
    have := hst n out w' hkk h
    exact h1 n out w' hkk h ⟨inv.cache, this.1, this.2⟩

/-! ## Importing -/

theorem ex_catchTpm {m : KM σ K α} {Q1 Q : Except Err α → World → Tpm K → Prop} (hm : Ex R T s m Q1)
    (h1 : ∀ w1 t1, Q1 (.error .tpm) w1 t1 → Q (.error .chain) w1 t1) (h2 : ∀ r w1 t1, r ≠ .error .tpm → Q1 r w1 t1 → Q r w1 t1) :
    Ex R T s (rethrowTpm m) Q := by
  obtain ⟨w', k1, k2, k3⟩ := hm
  unfold Ex rethrowTpm
  cases hms : m s with
  | mk r s' =>
    rw [hms] at k1 k2 k3
    cases r with
    | ok a => exact ⟨w', k1, h2 _ _ _ (fun h => by cases h) k2, k3⟩
    | error e =>
      by_cases he : e = .tpm
      · subst he
        exact ⟨w', k1, h1 _ _ k2, k3⟩
      · have hne : (.error e : Except Err α) ≠ .error .tpm := fun h => he (by injection h)
        cases e <;> first
          | exact absurd rfl he
          | exact ⟨w', k1, h2 _ _ _ hne k2, k3⟩

theorem ex_catchCrypto {m h : KM σ K α} {Q1 Q : Except Err α → World → Tpm K → Prop} (hm : Ex R T s m Q1)
    (h1 : ∀ w1 (s1 : St σ K), Sim R s1.pib w1 → Q1 (.error .crypto) w1 s1.tpm → Ex R T s1 h Q)
    (h2 : ∀ r w1 t1, r ≠ .error .crypto → Q1 r w1 t1 → Q r w1 t1) : Ex R T s (orCrypto m h) Q := by
  obtain ⟨w', k1, k2, k3⟩ := hm
  unfold Ex orCrypto
  cases hms : m s with
  | mk r s' =>
    rw [hms] at k1 k2 k3
    cases r with
    | ok a => exact ⟨w', k1, h2 _ _ _ (fun h => by cases h) k2, k3⟩
    | error e =>
      by_cases he : e = .crypto
      · subst he
        obtain ⟨w2, l1, l2, l3⟩ := h1 w' s' k1 k2
        exact ⟨w2, l1, l2, k3.trans l3⟩
      · have hne : (.error e : Except Err α) ≠ .error .crypto := fun h => he (by injection h)
        cases e <;> first
          | exact absurd rfl he
          | exact ⟨w', k1, h2 _ _ _ hne k2, k3⟩

theorem ex_importPrivateKey (hs : Sim R s.pib w) (inv : Inv C w s.tpm) (n : PName) (k : K) {Q : Except Err Unit → World → Tpm K → Prop}
    (h1 : get n s.tpm.keys = none → Inv C w { s.tpm with keys := put n (some k) s.tpm.keys } → Q (.ok ()) w { s.tpm with keys := put n (some k) s.tpm.keys })
    (h2 : (get n s.tpm.keys).isSome → Q (.error .chain) w s.tpm) : Ex R (TT C) s (importPrivateKey n k) Q := by
  unfold importPrivateKey
  refine ex_bindAt (at_tpmHas (s := s) _) ?_
  cases hg : get n s.tpm.keys with
  | some x =>
    simp only [Option.isSome_some, if_true]
    exact ex_raise hs _ (h2 (by rw [hg]; rfl))
  | none =>
    simp only [Option.isSome_none, Bool.false_eq_true, if_false]
    have inv' : Inv C w { s.tpm with keys := put n (some k) s.tpm.keys } := ⟨inv.cache.put _ hg, inv.held.put _ hg, inv.certs⟩
    refine ex_catchTpm (Q1 := fun r w' t => r = .ok () ∧ w' = w ∧ t = { s.tpm with keys := put n (some k) s.tpm.keys }) ?_ ?_ ?_
    · unfold tpmImport
      refine ex_bindAt (at_tpmHas (s := s) _) ?_
      rw [hg]
      simp only [Option.isSome_none, Bool.false_eq_true, if_false]
      exact ex_tpmPut hs _ _ inv'.t ⟨rfl, rfl, rfl⟩
    · rintro w1 t1 ⟨e', -⟩; cases e'
    · rintro r w1 t1 - ⟨rfl, rfl, rfl⟩; exact h1 hg inv'

end Ndn.KeyChain
