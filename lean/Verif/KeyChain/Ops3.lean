import Verif.KeyChain.Ops2
namespace Ndn.KeyChain
open Ndn.Name Ndn.Tlv Ndn.Block Ndn.Packet Ndn.Pib Ndn.Pib.Spec Ndn.KeyChain.Spec

variable {σ K α β : Type} {b : Backend σ} {R : σ → View → Prop} {A : View → PName → Prop}
  {T : View → List (PName × Option K) → Prop} {s : St σ K} {w : World} {C : Crypto K}

/-- The TPM stores the same keys. -/
def SameKeys (t t' : Tpm K) : Prop := ∀ n, get n t'.keys = get n t.keys

theorem sameKeys_back {t t1 : Tpm K} {n : PName} {k : Option K} (hn : get n t.keys = none) (h : t1.keys = put n k t.keys) :
    SameKeys t ⟨del n t1.keys, del n t1.cache⟩ := by
  intro m
  dsimp only
  rw [get_del, h, get_put]
  by_cases e : m = n
  · rw [if_pos e, e, hn]
  · rw [if_neg e, if_neg e]

theorem Inv.sameKeys {w' : World} {t t' : Tpm K} (h : Inv C w t) (hv : w'.v = w.v) (hk : SameKeys t t') (hc : CacheOk t') : Inv C w' t' := by
  refine ⟨hc, ?_, by rw [hv]; exact h.certs⟩
  intro k bits e
  rw [hv] at e
  obtain ⟨x, hx, hm⟩ := h.held k bits e
  exact ⟨x, by rw [hk]; exact hx, hm⟩

theorem ex_importSafeBag (F : Faithful b R A) (hs : Sim R s.pib w) (inv : Inv C w s.tpm) (c : Crt) (enc pw msg : Bytes)
    {k : PName} (hc : CertName k c.name) (ts : TestSound C c enc pw msg) {Q : Except Err Unit → World → Tpm K → Prop}
    (h1 : ∀ x w' t', Importable C s.tpm.priv k c enc pw msg → C.load enc pw = some x → get k s.tpm.keys = none → w.v.key k = none →
      w'.v = ((withIdent w.v c.identity).addKey c.identity k c.pub).addCert c → Live w w' → t'.keys = put k (some x) s.tpm.keys → Inv C w' t' →
      Q (.ok ()) w' t')
    (h2 : ∀ w' t', ¬ Importable C s.tpm.priv k c enc pw msg → Same w w' → SameKeys s.tpm t' → Inv C w' t' → Q (.error .chain) w' t') :
    Ex R (TT C) s (importSafeBag C b c enc pw msg) Q := by
  have co := (F.rep hs.rep).coh
  have hkn : c.keyName = k := crt_keyName hc
  have hki := crt_identity hc
  unfold importSafeBag
  rw [hkn]
  refine ex_bindAt (at_tpmHas (s := s) _) ?_
  cases hg : get k s.tpm.keys with
  | some x =>
    simp only [Option.isSome_some, if_true]
    exact ex_raise hs _ (h2 _ _ (fun h => by rw [Importable, Tpm.priv, hg] at h; cases h.1) (.refl _) (fun _ => rfl) inv)
  | none =>
    simp only [Option.isSome_none, Bool.false_eq_true, if_false]
    have hno : w.v.key k = none := by
      cases hkk : w.v.key k with
      | none => rfl
      | some x =>
        obtain ⟨y, hy, -⟩ := inv.held k x hkk
        rw [hg] at hy; cases hy
    refine ex_bind (Q1 := fun r w' t => r = .ok false ∧ Same w w' ∧ t = s.tpm) ?_ ?_ ?_
    · refine ex_orPib (Q1 := fun r w' t => r = .error .pib ∧ Same w w' ∧ t = s.tpm) ?_ ?_ ?_
      · refine ex_bind (Q1 := fun r w' t => t = s.tpm ∧ ((∃ x, r = .ok x ∧ Same w w' ∧ w'.hs x = .alive (.ident c.identity)) ∨
            r = .error .pib ∧ w' = w))
          (ex_getIdentity F hs _ inv.t (fun h w' _ a2 a3 => ⟨rfl, .inl ⟨h, rfl, a2, a3⟩⟩) (fun _ => ⟨rfl, .inr ⟨rfl, rfl⟩⟩)) ?_ ?_
        · rintro x w1 s1 hs1 ⟨ht1, ⟨x', e', hsm, hx⟩ | ⟨e', -⟩⟩
          · injection e' with e'; subst e'
            refine ex_bind (Q1 := fun r w' t => r = .error .pib ∧ Same w w' ∧ t = s.tpm)
              (ex_getKey F hs1 hx hki (inv.same hsm ht1).t (fun y w' a1 _ _ => by rw [hsm.v, hno] at a1; cases a1) (fun _ => ⟨rfl, hsm, ht1⟩)) ?_ ?_
            · rintro _ _ _ _ ⟨e', -⟩; cases e'
            · rintro e w2 t2 ⟨e', r⟩; injection e' with e'; subst e'; exact ⟨rfl, r⟩
          · cases e'
        · rintro e w1 t1 ⟨ht1, ⟨x', e', -⟩ | ⟨e', rfl⟩⟩
          · cases e'
          · injection e' with e'; subst e'; exact ⟨rfl, .refl _, ht1⟩
      · rintro w1 s1 hs1 ⟨-, r⟩; exact ex_pure hs1 _ ⟨rfl, r⟩
      · rintro r w1 t1 hr ⟨e', -⟩; exact absurd e' hr
    · rintro known w1 s1 hs1 ⟨e', hsm, ht1⟩
      injection e' with e'; subst e'
      simp only [Bool.false_eq_true, if_false]
      have inv1 : Inv C w1 s1.tpm := inv.same hsm ht1
      have hg1 : get k s1.tpm.keys = none := by rw [ht1]; exact hg
      refine ex_bind (Q1 := fun r w' t => w' = w1 ∧ ((r = .error .chain ∧ C.load enc pw = none ∧ t = s.tpm) ∨
        ∃ x, C.load enc pw = some x ∧ r = .ok () ∧ t = { s.tpm with keys := put k (some x) s.tpm.keys })) ?_ ?_ ?_
      · refine ex_catchTpm (Q1 := fun r w' t => w' = w1 ∧ ((r = .error .tpm ∧ C.load enc pw = none ∧ t = s.tpm) ∨
          ∃ x, C.load enc pw = some x ∧ r = .ok () ∧ t = { s.tpm with keys := put k (some x) s.tpm.keys })) ?_ ?_ ?_
        · unfold tpmImportPkcs8
          refine ex_bindAt (at_tpmHas (s := s1) _) ?_
          rw [hg1]
          simp only [Option.isSome_none, Bool.false_eq_true, if_false]
          cases hl : C.load enc pw with
          | none => exact ex_raise hs1 _ ⟨rfl, .inl ⟨rfl, rfl, ht1⟩⟩
          | some x => exact ex_tpmPut hs1 _ _ ⟨inv1.held.put _ hg1, inv1.certs⟩ ⟨rfl, .inr ⟨x, rfl, rfl, by rw [ht1]⟩⟩
        · rintro w2 t2 ⟨rfl, ⟨-, hl, ht⟩ | ⟨x, -, e', -⟩⟩
          · exact ⟨rfl, .inl ⟨rfl, hl, ht⟩⟩
          · cases e'
        · rintro r w2 t2 hr ⟨rfl, ⟨e', -⟩ | h⟩
          · exact absurd e' hr
          · exact ⟨rfl, .inr h⟩
      · rintro _ w2 s2 hs2 ⟨rfl, ⟨e', -⟩ | ⟨x, hl, -, ht2⟩⟩
        · cases e'
        · have hg2 : get k s2.tpm.keys = some (some x) := by rw [ht2]; dsimp only; rw [get_put, if_pos rfl]
          have inv2 : Inv C w2 s2.tpm := by
            rw [ht2]
            exact ⟨inv.cache.put _ hg, by rw [hsm.v]; exact inv.held.put _ hg, by rw [hsm.v]; exact inv.certs⟩
          have hks : ∀ t', Kept s2.tpm t' → t'.keys = put k (some x) s.tpm.keys := by
            intro t' h; rw [h.keys, ht2]
          -- deleting the key again
          have undo : ∀ {α : Type} (s3 : St σ K) (Q' : Except Err α → World → Tpm K → Prop), Sim R s3.pib w2 → Kept s2.tpm s3.tpm →
              (∀ w' t', Same w w' → SameKeys s.tpm t' → Inv C w' t' → Q' (.error .chain) w' t') →
              Ex R (TT C) s3 (do tpmDelete k; raise .chain) Q' := by
            intro α s3 Q' hs3 ht3 hq
            have inv3 : Inv C w2 s3.tpm := inv2.move rfl ht3
            have hno3 : w2.v.key k = none := by rw [hsm.v]; exact hno
            refine ex_bind (Q1 := fun r w' t => r = .ok () ∧ w' = w2 ∧ t = ⟨del k s3.tpm.keys, del k s3.tpm.cache⟩)
              (ex_tpmDelete hs3 k ⟨inv3.held.del hno3, inv3.certs⟩ ⟨rfl, rfl, rfl⟩) ?_ ?_
            · rintro _ w4 s4 hs4 ⟨-, rfl, ht4⟩
              refine ex_raise hs4 _ (hq _ _ hsm ?_ ?_)
              · rw [ht4]; exact sameKeys_back hg (hks _ ht3)
              · rw [ht4]; exact ⟨inv3.cache.del k, inv3.held.del hno3, inv3.certs⟩
            · rintro e w4 t4 ⟨e', -⟩; cases e'
          refine ex_bind (Q1 := fun r w' t => (∃ sig, r = .ok (some sig) ∧ w' = w2 ∧ Kept s2.tpm t ∧ C.sign x .sha256 msg = some sig) ∨
              (r = .error .chain ∧ C.sign x .sha256 msg = none ∧ Same w w' ∧ SameKeys s.tpm t ∧ Inv C w' t)) ?_ ?_ ?_
          · refine ex_catchCrypto (Q1 := fun r w' t => w' = w2 ∧ Kept s2.tpm t ∧ ((∃ sig, r = .ok (some sig) ∧ C.sign x .sha256 msg = some sig) ∨
                r = .error .crypto ∧ C.sign x .sha256 msg = none)) ?_ ?_ ?_
            · refine ex_tpmSign C msg hs2 k .sha256 inv2.cache ?_ ?_ ?_ ?_
              · intro x' sig t' a1 a2 a3
                rw [hg2] at a1; injection a1 with a1; injection a1 with a1; subst a1
                exact ⟨rfl, a3, .inl ⟨sig, rfl, a2⟩⟩
              · intro a1; rw [hg2] at a1; cases a1
              · intro a1; rw [hg2] at a1; cases a1
              · intro x' t' a1 a2 a3
                rw [hg2] at a1; injection a1 with a1; injection a1 with a1; subst a1
                exact ⟨rfl, a3, .inr ⟨rfl, a2⟩⟩
            · rintro w3 s3 hs3 ⟨rfl, ht3, ⟨sig, e', -⟩ | ⟨-, hsg⟩⟩
              · cases e'
              · exact undo s3 _ hs3 ht3 (fun w' t' a1 a2 a3 => .inr ⟨rfl, hsg, a1, a2, a3⟩)
            · rintro r w3 t3 hr ⟨rfl, ht3, ⟨sig, e', h⟩ | ⟨e', -⟩⟩
              · exact .inl ⟨sig, e', rfl, ht3, h⟩
              · exact absurd e' hr
          · rintro o w3 s3 hs3 (⟨sig, e', rfl, ht3, hsg⟩ | ⟨e', -⟩)
            · injection e' with e'; subst e'
              dsimp only
              cases hv : C.verify c.pub msg sig with
              | false =>
                simp only [Bool.false_eq_true, if_false]
                refine undo s3 _ hs3 ht3 (fun w' t' => h2 w' t' ?_)
                rintro ⟨-, x', sig', a1, a2, a3⟩
                rw [hl] at a1; injection a1 with a1; subst a1
                rw [hsg] at a2; injection a2 with a2; subst a2
                rw [hv] at a3; cases a3
              | true =>
                simp only [if_true]
                have hm := ts x sig hl hsg hv
                have inv3 : Inv C w3 s3.tpm := inv2.move rfl ht3
                have hno3 : w3.v.key k = none := by rw [hsm.v]; exact hno
                have hg3 : get k s3.tpm.keys = some (some x) := by rw [ht3.keys]; exact hg2
                have tt4 : TT C (withIdent w3.v c.identity) s3.tpm.keys := inv3.t.congr (withIdent_key _ _) (withIdent_cert _ _)
                refine ex_bind (Q1 := fun r w' t => t = s3.tpm ∧ ∃ h, r = .ok h ∧ w'.v = withIdent w3.v c.identity ∧
                    w'.hs h = .alive (.ident c.identity) ∧ Live w3 w')
                  (ex_addIdentity F hs3 _ tt4 (fun h w' a1 a2 a3 => ⟨rfl, h, rfl, a1, a2, a3⟩)) ?_ ?_
                · rintro h w4 s4 hs4 ⟨ht4, h', e', hv4, hh, lv4⟩
                  injection e' with e'; subst e'
                  have co4 := (F.rep hs4.rep).coh
                  have hno4 : w4.v.key k = none := by rw [hv4, withIdent_key]; exact hno3
                  have inv4 : Inv C w4 s4.tpm := ⟨by rw [ht4]; exact inv3.cache, by rw [hv4, ht4]; exact tt4.1, by rw [hv4]; exact tt4.2⟩
                  have tt5 := inv4.t.addKey (i := c.identity) co4 x (by rw [ht4]; exact hg3) hm (.inl hno4)
                  refine ex_bind (Q1 := fun r w' t => t = s4.tpm ∧ ∃ y, r = .ok y ∧ w'.v = w4.v.addKey c.identity k c.pub ∧
                      w'.hs y = .alive (.key k) ∧ ∀ x r, w4.hs x = .alive r → r ≠ .key k → w'.hs x = .alive r)
                    (ex_addKey F hs4 c.pub hh hki tt5 (fun y w' a1 a2 a3 => ⟨rfl, y, rfl, a1, a2, a3⟩)) ?_ ?_
                  · rintro y w5 s5 hs5 ⟨ht5, y', e', hv5, hy, lv5⟩
                    injection e' with e'; subst e'
                    have inv5 : Inv C w5 s5.tpm := ⟨by rw [ht5]; exact inv4.cache, by rw [hv5, ht5]; exact tt5.1, by rw [hv5]; exact tt5.2⟩
                    have hkey : w5.v.key k = some c.pub := by rw [hv5]; simp [View.addKey, upd]
                    have stp : ∀ out w', Step w5 (.addCert y c) out w' → out = .done ∧ w' = ⟨w5.v.addCert c, w5.hs⟩ := by
                      intro out w' h
                      simp only [Step, onKey, hy] at h
                      rw [if_pos ⟨hc, hkey⟩] at h
                      exact h
                    have tt6 := inv5.t.addCert (c := c) (by rw [hkn]; exact hkey)
                    refine ex_done F hs5 (.addCert y c) ⟨k, hc⟩ ?_ (fun _ _ e => by cases e) ?_ ?_
                    · intro k' hk' hx
                      rw [hy] at hk'; injection hk' with hk'; injection hk' with hk'; subst hk'
                      rw [hv5] at hx
                      have : w4.v.defCert k = some c.name := hx.2
                      rw [Coherent.noDefCert co4 hno4] at this; cases this
                    · intro out w' hst
                      obtain ⟨-, rfl⟩ := stp _ _ hst
                      exact tt6
                    · intro out w' hst
                      obtain ⟨rfl, rfl⟩ := stp _ _ hst
                      refine h1 x _ _ ⟨hg, x, sig, hl, hsg, hv⟩ hl hg hno ?_ ?_ ?_ ⟨inv5.cache, tt6.1, tt6.2⟩
                      · dsimp only; rw [hv5, hv4, hsm.v]
                      · intro z r hz
                        refine lv5 _ _ (lv4 _ _ (hsm.live _ _ hz)) ?_
                        rintro rfl
                        have := alive_key hs hz
                        rw [hno] at this; cases this
                      · rw [ht5, ht4]; exact hks _ ht3
                  · rintro e w5 t5 ⟨-, y, e', -⟩; cases e'
                · rintro e w4 t4 ⟨-, h, e', -⟩; cases e'
            · cases e'
          · rintro e w3 t3 (⟨sig, e', -⟩ | ⟨e', hsg, a1, a2, a3⟩)
            · cases e'
            · injection e' with e'; subst e'
              refine h2 _ _ ?_ a1 a2 a3
              rintro ⟨-, x', sig', b1, b2, b3⟩
              rw [hl] at b1; injection b1 with b1; subst b1
              rw [hsg] at b2; cases b2
      · rintro e w2 t2 ⟨rfl, ⟨e', hl, ht⟩ | ⟨x, -, e', -⟩⟩
        · injection e' with e'; subst e'
          rw [ht]
          refine h2 _ _ ?_ hsm (fun _ => rfl) (inv.same hsm rfl)
          rintro ⟨-, x', sig', b1, -⟩
          rw [hl] at b1; cases b1
        · cases e'
    · rintro e w1 t1 ⟨e', -⟩; cases e'

/-! ## Queries -/

theorem step_query {op : FOp} (hq : isQuery op = true) {out : Out} {w' : World} (h : Step w op out w') : Same w w' := by
  have gi : ∀ {n}, GivesIdent w.v w.hs n out w' → Same w w' := by
    rintro n ⟨x, -, hx, rfl⟩; exact ⟨rfl, issue_live hx⟩
  have gk : ∀ {n}, GivesKey w.v w.hs n out w' → Same w w' := by
    rintro n ⟨x, -, hx, rfl⟩; exact ⟨rfl, issue_live hx⟩
  have rf : ∀ {p : Prop}, p ∧ w' = w → Same w w' := by rintro p ⟨-, rfl⟩; exact .refl _
  cases op
  all_goals first
    | (exfalso; cases hq; done)
    | simp only [Step, onIdent, onKey] at h
  all_goals (repeat' split at h)
  all_goals first
    | exact rf h
    | exact gi h
    | exact gk h

theorem ex_query (F : Faithful b R A) (hs : Sim R s.pib w) (inv : Inv C w s.tpm) (op : FOp) (hq : isQuery op = true)
    {Q : Except Err Out → World → Tpm K → Prop} (h1 : ∀ out w', Step w op out w' → Same w w' → Q (asRes out) w' s.tpm) :
    Ex R (TT C) s (Ndn.KeyChain.pib b op) Q := by
  refine ex_pib F hs op ?_ ?_ ?_ ?_ (fun out w' h => h1 out w' h (step_query hq h))
  · cases op <;> first | trivial | cases hq
  · cases op <;> first | trivial | cases hq
  · intro x y e; subst e; cases hq
  · intro out w' h
    rw [(step_query hq h).v]; exact inv.t

end Ndn.KeyChain
