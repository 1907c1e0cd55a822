import Verif.KeyChain.Inv
/-
Signing, step by step.
-/
namespace Ndn.KeyChain
open Ndn.Name Ndn.Tlv Ndn.Block Ndn.Packet Ndn.Pib Ndn.Pib.Spec Ndn.KeyChain.Spec

variable {σ K α β : Type} {b : Backend σ} {R : σ → View → Prop} {A : View → PName → Prop}
  {T : View → List (PName × Option K) → Prop} {s : St σ K} {w : World} {C : Crypto K}

section
variable (F : Faithful b R A) (hs : Sim R s.pib w) (hT : T w.v s.tpm.keys)
include F hs hT

theorem exb_keyName {h : Nat} {k : PName} (hh : w.hs h = .alive (.key k)) {f : List PName → KM σ K β}
    {Q : Except Err β → World → Tpm K → Prop} (hf : ∀ s1 : St σ K, Sim R s1.pib w → s1.tpm = s.tpm → Ex R T s1 (f [k]) Q) :
    Ex R T s (pibNames b (.keyName h) >>= f) Q := by
  refine ex_bind (Q1 := fun r w' t => w' = w ∧ t = s.tpm ∧ r = .ok [k]) (ex_keyName F hs hh hT ⟨rfl, rfl, rfl⟩) ?_ ?_
  · rintro a w1 s1 h1 ⟨rfl, ht, e⟩; injection e with e; subst e; exact hf s1 h1 ht
  · rintro e w1 t1 ⟨-, -, h⟩; cases h

theorem exb_identName {h : Nat} {i : PName} (hh : w.hs h = .alive (.ident i)) {f : List PName → KM σ K β}
    {Q : Except Err β → World → Tpm K → Prop} (hf : ∀ s1 : St σ K, Sim R s1.pib w → s1.tpm = s.tpm → Ex R T s1 (f [i]) Q) :
    Ex R T s (pibNames b (.identName h) >>= f) Q := by
  refine ex_bind (Q1 := fun r w' t => w' = w ∧ t = s.tpm ∧ r = .ok [i]) (ex_identName F hs hh hT ⟨rfl, rfl, rfl⟩) ?_ ?_
  · rintro a w1 s1 h1 ⟨rfl, ht, e⟩; injection e with e; subst e; exact hf s1 h1 ht
  · rintro e w1 t1 ⟨-, -, h⟩; cases h

theorem exb_keyBits {h : Nat} {k : PName} (hh : w.hs h = .alive (.key k)) {f : Bytes → KM σ K β}
    {Q : Except Err β → World → Tpm K → Prop}
    (hf : ∀ (s1 : St σ K) (bits : Bytes), Sim R s1.pib w → s1.tpm = s.tpm → w.v.key k = some bits → Ex R T s1 (f bits) Q) :
    Ex R T s (pibBits b (.keyBits h) >>= f) Q := by
  refine ex_bind (Q1 := fun r w' t => w' = w ∧ t = s.tpm ∧ ∃ bits, w.v.key k = some bits ∧ r = .ok bits)
    (ex_keyBits F hs hh hT (fun bits hb => ⟨rfl, rfl, bits, hb, rfl⟩)) ?_ ?_
  · rintro a w1 s1 h1 ⟨rfl, ht, bits, hb, e⟩; injection e with e; subst e; exact hf s1 a h1 ht hb
  · rintro e w1 t1 ⟨-, -, bits, -, h⟩; cases h

/-- The name for the KeyLocator. -/
theorem ex_locator {h : Nat} {k : PName} (hh : w.hs h = .alive (.key k)) {Q : Except Err PName → World → Tpm K → Prop}
    (hq : Q (.ok (locator w.v k)) w s.tpm) :
    Ex R T s (orPib (do let c ← pibCert b (.getDefaultCert h); pure c.name) (pure k)) Q := by
  refine ex_orPib (Q1 := fun r w' t => w' = w ∧ t = s.tpm ∧ ((∃ n, r = .ok n ∧ w.v.defCert k = some n) ∨ r = .error .pib ∧ w.v.defCert k = none)) ?_ ?_ ?_
  · refine ex_bind (Q1 := fun r w' t => w' = w ∧ t = s.tpm ∧ ((∃ c : Crt, r = .ok c ∧ w.v.defCert k = some c.name) ∨ r = .error .pib ∧ w.v.defCert k = none))
      (ex_getDefaultCert F hs hh hT (fun c h1 _ => ⟨rfl, rfl, .inl ⟨c, rfl, h1⟩⟩) (fun h => ⟨rfl, rfl, .inr ⟨rfl, h⟩⟩)) ?_ ?_
    · rintro a w1 s1 h1 ⟨rfl, ht, ⟨c, e, hd⟩ | ⟨e, -⟩⟩
      · injection e with e; subst e
        exact ex_pure h1 _ ⟨rfl, ht, .inl ⟨_, rfl, hd⟩⟩
      · cases e
    · rintro e w1 t1 ⟨rfl, ht, ⟨c, e', -⟩ | ⟨e', hd⟩⟩
      · cases e'
      · injection e' with e'; subst e'; exact ⟨rfl, ht, .inr ⟨rfl, hd⟩⟩
  · rintro w1 s1 h1 ⟨rfl, ht, ⟨n, e, -⟩ | ⟨-, hd⟩⟩
    · cases e
    · refine ex_pure h1 _ ?_
      simp only [locator, hd, Option.getD_none] at hq
      rw [ht]; exact hq
  · rintro r w1 t1 hr ⟨rfl, ht, ⟨n, e, hd⟩ | ⟨e, -⟩⟩
    · simp only [locator, hd, Option.getD_some] at hq
      rw [ht, e]; exact hq
    · exact absurd e hr

end

theorem at_signatureType (t : KType) : (signatureType (some t) : KM σ K Nat) s = (.ok (kindNo t), s) := by cases t <;> rfl

section
variable (F : Faithful b R A) (W : Works C) (hs : Sim R s.pib w) (inv : Inv C w s.tpm)
include F W hs inv

/-- A key of the PIB is of a known kind. -/
theorem kind_known {k : PName} {bits : Bytes} (hk : w.v.key k = some bits) : ∃ t, C.keyType bits = some t := by
  obtain ⟨x, -, hm⟩ := inv.held k bits hk
  obtain ⟨sig, -, hv⟩ := hm []
  exact Option.isSome_iff_exists.mp (W.kind _ _ _ hv)

theorem ex_prepareKey {h : Nat} {k : PName} (hh : w.hs h = .alive (.key k)) (p : SInfo K) (cert : Option PName)
    {Q : Except Err (PName × SigInfo) → World → Tpm K → Prop}
    (hq : ∀ bits, w.v.key k = some bits → Q (.ok (k, keyInfo C p bits (cert.getD (locator w.v k)))) w s.tpm) :
    Ex R (TT C) s (prepareKey C b p h cert) Q := by
  unfold prepareKey
  refine exb_keyBits F hs inv.t hh (fun s1 bits h1 ht hb => ?_)
  have hq := hq bits hb
  obtain ⟨kt, hkt⟩ := kind_known F W hs inv hb
  rw [hkt]
  refine ex_bindAt (at_signatureType (s := s1) kt) ?_
  refine exb_keyName F h1 (by rw [ht]; exact inv.t) hh (fun s2 h2 ht2 => ?_)
  rw [← ht, ← ht2] at hq
  dsimp only [List.headD_cons]
  simp only [keyInfo, hkt, Option.map_some] at hq
  cases hl : p.info.keyLocator with
  | some l =>
    simp only [hl, Option.getD_some] at hq
    refine ex_pure h2 _ ?_
    exact hq
  | none =>
    simp only [hl, Option.getD_none] at hq
    cases cert with
    | some c =>
      simp only [Option.getD_some] at hq
      exact ex_pure h2 _ hq
    | none =>
      simp only [Option.getD_none] at hq
      refine ex_bind (Q1 := fun r w' t => w' = w ∧ t = s2.tpm ∧ r = .ok (locator w.v k))
        (ex_locator F h2 (by rw [ht2, ht]; exact inv.t) hh ⟨rfl, rfl, rfl⟩) ?_ ?_
      · rintro a w1 s3 h3 ⟨rfl, ht3, e3⟩
        injection e3 with e3; subst e3
        exact ex_pure h3 _ (by rw [ht3]; exact hq)
      · rintro e w1 t1 ⟨-, -, h⟩; cases h

theorem ex_prepareIdent {h : Nat} {i : PName} (hh : w.hs h = .alive (.ident i)) (p : SInfo K)
    {Q : Except Err (PName × SigInfo) → World → Tpm K → Prop}
    (h1 : ∀ k bits w', Same w w' → w.v.defKey i = some k → w.v.key k = some bits →
      Q (.ok (k, keyInfo C p bits (locator w.v k))) w' s.tpm)
    (h2 : w.v.defKey i = none → Q (.error .signing) w s.tpm) : Ex R (TT C) s (prepareIdent C b p h) Q := by
  unfold prepareIdent
  refine ex_bind (Q1 := fun r w' t => t = s.tpm ∧ ((∃ x k, r = .ok x ∧ Same w w' ∧ w.v.defKey i = some k ∧ w'.hs x = .alive (.key k)) ∨
      r = .error .signing ∧ w' = w ∧ w.v.defKey i = none)) ?_ ?_ ?_
  · refine ex_orPib (Q1 := fun r w' t => t = s.tpm ∧ ((∃ x k, r = .ok x ∧ Same w w' ∧ w.v.defKey i = some k ∧ w'.hs x = .alive (.key k)) ∨
      r = .error .pib ∧ w' = w ∧ w.v.defKey i = none))
      (ex_getDefaultKey F hs hh inv.t (fun x k w' hd hsm hx => ⟨rfl, .inl ⟨x, k, rfl, hsm, hd, hx⟩⟩) (fun hd => ⟨rfl, .inr ⟨rfl, rfl, hd⟩⟩)) ?_ ?_
    · rintro w1 s1 hs1 ⟨ht, ⟨x, k, e, -⟩ | ⟨-, rfl, hd⟩⟩
      · cases e
      · exact ex_raise hs1 _ ⟨ht, .inr ⟨rfl, rfl, hd⟩⟩
    · rintro r w1 t1 hr ⟨ht, hx | ⟨e, -⟩⟩
      · exact ⟨ht, .inl hx⟩
      · exact absurd e hr
  · rintro a w1 s1 hs1 ⟨ht, ⟨x, k, e, hsm, hd, hx⟩ | ⟨e, -⟩⟩
    · injection e with e; subst e
      refine ex_prepareKey F W hs1 (inv.same hsm ht) hx p none (fun bits hb => ?_)
      rw [hsm.v] at hb ⊢
      rw [ht]
      exact h1 k bits w1 hsm hd hb
    · cases e
  · rintro e w1 t1 ⟨ht, ⟨x, k, e', -⟩ | ⟨e', rfl, hd⟩⟩
    · cases e'
    · injection e' with e'; subst e'; rw [ht]; exact h2 hd

end

/-- What `prepare` gives. -/
def Prepared (C : Crypto K) (w : World) (p : SInfo K) (t : Tpm K) (r : Except Err (PName × SigInfo)) (w' : World) (t' : Tpm K) : Prop :=
  Same w w' ∧
  ((t' = t ∧ ∃ k loc bits, Signer w p k loc ∧ w.v.key k = some bits ∧ r = .ok (k, keyInfo C p bits loc)) ∨
   (t' = t ∧ Digest w p ∧ r = .ok (digestIdentity, { p.info with type := some 0 })) ∨
   (p.type = .hmac ∧ (t' = t ∧ (get p.name t.keys).isSome ∨ get p.name t.keys = none ∧ t' = { t with keys := put p.name p.hmac t.keys }) ∧
    r = .ok (p.name, { p.info with type := some 4, keyLocator := some (.name p.name) })) ∨
   (t' = t ∧ (∀ k loc, ¬ Signer w p k loc) ∧ ¬ Digest w p ∧ p.type ≠ .hmac ∧
    (r = .error .signing ∨ r = .error .invalid ∧
      (p.type = .key ∧ (∀ i, ¬ KeyName i p.name) ∨ p.type = .cert ∧ (∀ k, ¬ CertName k p.name)))))

theorem at_usableIdent (hs : Sim R s.pib w) (o : Option Nat) :
    (usable identValid o : KM σ K (Option Nat)) s = (.ok (o.filter fun h => (identOf w h).isSome), s) := by
  cases o with
  | none => rfl
  | some h =>
    simp only [usable]
    refine (bind_ok (at_identValid hs h) _).trans ?_
    cases e : (identOf w h).isSome <;> simp [Option.filter, e] <;> rfl

theorem at_usableKey (hs : Sim R s.pib w) (o : Option Nat) :
    (usable keyValid o : KM σ K (Option Nat)) s = (.ok (o.filter fun h => (keyOfH w h).isSome), s) := by
  cases o with
  | none => rfl
  | some h =>
    simp only [usable]
    refine (bind_ok (at_keyValid hs h) _).trans ?_
    cases e : (keyOfH w h).isSome <;> simp [Option.filter, e] <;> rfl

theorem filter_ident {o : Option Nat} : (∃ h i, o = some h ∧ w.hs h = .alive (.ident i) ∧ (o.filter fun h => (identOf w h).isSome) = some h) ∨
    (¬ ∃ h j, o = some h ∧ w.hs h = .alive (.ident j)) ∧ (o.filter fun h => (identOf w h).isSome) = none := by
  cases o with
  | none => exact .inr ⟨(fun ⟨_, _, e, _⟩ => by cases e), rfl⟩
  | some h =>
    cases e : identOf w h with
    | some i => exact .inl ⟨h, i, rfl, identOf_iff.mp e, by simp [Option.filter, e]⟩
    | none =>
      refine .inr ⟨?_, by simp [Option.filter, e]⟩
      rintro ⟨h', j, e1, e2⟩
      injection e1 with e1; subst e1
      rw [identOf_iff.mpr e2] at e; cases e

theorem filter_key {o : Option Nat} : (∃ h i, o = some h ∧ w.hs h = .alive (.key i) ∧ (o.filter fun h => (keyOfH w h).isSome) = some h) ∨
    (¬ ∃ h j, o = some h ∧ w.hs h = .alive (.key j)) ∧ (o.filter fun h => (keyOfH w h).isSome) = none := by
  cases o with
  | none => exact .inr ⟨(fun ⟨_, _, e, _⟩ => by cases e), rfl⟩
  | some h =>
    cases e : keyOfH w h with
    | some i => exact .inl ⟨h, i, rfl, keyOfH_iff.mp e, by simp [Option.filter, e]⟩
    | none =>
      refine .inr ⟨?_, by simp [Option.filter, e]⟩
      rintro ⟨h', j, e1, e2⟩
      injection e1 with e1; subst e1
      rw [keyOfH_iff.mpr e2] at e; cases e

section
variable (F : Faithful b R A) (hs : Sim R s.pib w) (hT : T w.v s.tpm.keys)
include F hs hT

/-- Looking up a key by name. -/
theorem ex_findKey {i k : PName} (hk : KeyName i k) {Q : Except Err Nat → World → Tpm K → Prop}
    (h1 : ∀ x w', Same w w' → (w.v.key k).isSome → w'.hs x = .alive (.key k) → Q (.ok x) w' s.tpm)
    (h2 : ∀ w', Same w w' → w.v.key k = none → Q (.error .pib) w' s.tpm) :
    Ex R T s (do let h ← pibIdent b (.getIdentity i); pibKey b (.getKey h k)) Q := by
  have co := (F.rep hs.rep).coh
  refine ex_bind (Q1 := fun r w' t => t = s.tpm ∧ ((∃ x, r = .ok x ∧ Same w w' ∧ w'.hs x = .alive (.ident i)) ∨
      r = .error .pib ∧ w' = w ∧ w.v.ident i = false))
    (ex_getIdentity F hs i hT (fun h w' _ hsm hh => ⟨rfl, .inl ⟨h, rfl, hsm, hh⟩⟩) (fun hn => ⟨rfl, .inr ⟨rfl, rfl, hn⟩⟩)) ?_ ?_
  · rintro a w1 s1 hs1 ⟨ht, ⟨x, e, hsm, hx⟩ | ⟨e, -⟩⟩
    · injection e with e; subst e
      refine ex_getKey F hs1 hx hk (by rw [ht, hsm.v]; exact hT) (fun y w' hks hsm' hy => ?_) (fun hn => ?_)
      · rw [ht]; exact h1 y w' (hsm.trans hsm') (by rw [← hsm.v]; exact hks) hy
      · rw [ht]; exact h2 w1 hsm (by rw [← hsm.v]; exact hn)
    · cases e
  · rintro e w1 t1 ⟨ht, ⟨x, e', -⟩ | ⟨e', rfl, hn⟩⟩
    · cases e'
    · injection e' with e'; subst e'
      rw [ht]
      refine h2 _ (.refl _) ?_
      cases hkk : w1.v.key k with
      | none => rfl
      | some x =>
        obtain ⟨j, hj, hj2⟩ := co.parent k (by rw [hkk]; rfl)
        have := keyName_inj hk hj; subst this
        rw [hn] at hj2; cases hj2

theorem ex_findKeyOr {i k : PName} (hk : KeyName i k) {Q : Except Err Nat → World → Tpm K → Prop}
    (h1 : ∀ x w', Same w w' → (w.v.key k).isSome → w'.hs x = .alive (.key k) → Q (.ok x) w' s.tpm)
    (h2 : ∀ w', Same w w' → w.v.key k = none → Q (.error .signing) w' s.tpm) :
    Ex R T s (orPib (do let h ← pibIdent b (.getIdentity i); pibKey b (.getKey h k)) (raise .signing)) Q := by
  refine ex_orPib (Q1 := fun r w' t => t = s.tpm ∧ Same w w' ∧ ((∃ x, r = .ok x ∧ (w.v.key k).isSome ∧ w'.hs x = .alive (.key k)) ∨
      r = .error .pib ∧ w.v.key k = none)) (ex_findKey F hs hT hk (fun x w' hsm hks hx => ⟨rfl, hsm, .inl ⟨x, rfl, hks, hx⟩⟩)
        (fun w' hsm hn => ⟨rfl, hsm, .inr ⟨rfl, hn⟩⟩)) ?_ ?_
  · rintro w1 s1 hs1 ⟨ht, hsm, ⟨x, e, -⟩ | ⟨-, hn⟩⟩
    · cases e
    · exact ex_raise hs1 _ (by rw [ht]; exact h2 w1 hsm hn)
  · rintro r w1 t1 hr ⟨ht, hsm, ⟨x, e, hks, hx⟩ | ⟨e, -⟩⟩
    · rw [ht, e]; exact h1 x w1 hsm hks hx
    · exact absurd e hr

end

theorem signer_not {p : SInfo K} (t : SType) (ht : p.type = t) (h1 : t ≠ .null) (h2 : t ≠ .ident) (h3 : t ≠ .key) (h4 : t ≠ .cert) :
    ∀ k loc, ¬ Signer w p k loc := by
  intro k loc h
  cases h <;> simp_all

theorem ex_prepare (F : Faithful b R A) (W : Works C) (hs : Sim R s.pib w) (inv : Inv C w s.tpm) (p : SInfo K) :
    Ex R (TT C) s (prepare C b p) (Prepared C w p s.tpm) := by
  unfold prepare
  cases hp : p.type with
  | null =>
    dsimp only
    refine ex_bind (Q1 := fun r w' t => t = s.tpm ∧ ((∃ h i, r = .ok (some h) ∧ Same w w' ∧ w.v.defIdent = some i ∧ w'.hs h = .alive (.ident i)) ∨
        (r = .ok none ∧ w' = w ∧ w.v.defIdent = none))) ?_ ?_ ?_
    · refine ex_orPib (Q1 := fun r w' t => t = s.tpm ∧ ((∃ h i, r = .ok (some h) ∧ Same w w' ∧ w.v.defIdent = some i ∧ w'.hs h = .alive (.ident i)) ∨
        (r = .error .pib ∧ w' = w ∧ w.v.defIdent = none))) ?_ ?_ ?_
      · refine ex_bind (Q1 := fun r w' t => t = s.tpm ∧ ((∃ h i, r = .ok h ∧ Same w w' ∧ w.v.defIdent = some i ∧ w'.hs h = .alive (.ident i)) ∨
          (r = .error .pib ∧ w' = w ∧ w.v.defIdent = none)))
          (ex_getDefaultIdentity F hs inv.t (fun h n w' hd hsm hh => ⟨rfl, .inl ⟨h, n, rfl, hsm, hd, hh⟩⟩) (fun hd => ⟨rfl, .inr ⟨rfl, rfl, hd⟩⟩)) ?_ ?_
        · rintro a w1 s1 hs1 ⟨ht, ⟨h, i, e, hr⟩ | ⟨e, -⟩⟩
          · injection e with e; subst e
            exact ex_pure hs1 _ ⟨ht, .inl ⟨a, i, rfl, hr⟩⟩
          · cases e
        · rintro e w1 t1 ⟨ht, ⟨h, i, e', -⟩ | ⟨e', hr⟩⟩
          · cases e'
          · injection e' with e'; subst e'; exact ⟨ht, .inr ⟨rfl, hr⟩⟩
      · rintro w1 s1 hs1 ⟨ht, ⟨h, i, e, -⟩ | ⟨-, hr⟩⟩
        · cases e
        · exact ex_pure hs1 _ ⟨ht, .inr ⟨rfl, hr⟩⟩
      · rintro r w1 t1 hr ⟨ht, hx | ⟨e, -⟩⟩
        · exact ⟨ht, .inl hx⟩
        · exact absurd e hr
    · rintro a w1 s1 hs1 ⟨ht, ⟨h, i, e, hsm, hd, hh⟩ | ⟨e, rfl, hd⟩⟩
      · injection e with e; subst e
        dsimp only
        refine ex_prepareIdent F W hs1 (inv.same hsm ht) hh p (fun k bits w' hsm' hdk hb => ?_) (fun hdk => ?_)
        · rw [hsm.v] at hdk hb ⊢
          exact ⟨hsm.trans hsm', .inl ⟨ht, k, _, bits, .default hp hd hdk, hb, rfl⟩⟩
        · rw [hsm.v] at hdk
          refine ⟨hsm, .inr (.inr (.inr ⟨ht, ?_, ?_, by simp [hp], .inl rfl⟩))⟩
          · intro k loc hsg
            cases hsg <;> simp_all
          · rintro (h | ⟨-, h⟩) <;> simp_all
      · injection e with e; subst e
        exact ex_pure hs1 _ ⟨.refl _, .inr (.inl ⟨ht, .inr ⟨hp, hd⟩, rfl⟩)⟩
    · rintro e w1 t1 ⟨ht, ⟨h, i, e', -⟩ | ⟨e', -⟩⟩ <;> cases e'
  | ident =>
    dsimp only
    have nodig : ¬ Digest w p := by rintro (h | ⟨h, -⟩) <;> simp [hp] at h
    unfold Ex
    rw [bind_ok (at_usableIdent hs p.ident)]
    rcases filter_ident (w := w) (o := p.ident) with ⟨h, i, hph, hh, e⟩ | ⟨hno, e⟩
    · rw [e]
      dsimp only
      have nos : ∀ k loc, Signer w p k loc → ∃ k', w.v.defKey i = some k' := by
        intro k loc hsg
        cases hsg <;> simp_all
        rename_i j hg _
        rcases hg with ⟨h', e1, e2⟩ | ⟨hn, -⟩
        · simp_all
        · exact absurd ⟨h, i, hph, hh⟩ hn
      refine ex_prepareIdent F W hs inv hh p (fun k bits w' hsm' hdk hb => ?_) (fun hdk => ?_)
      · exact ⟨hsm', .inl ⟨rfl, k, _, bits, .ident hp (.inl ⟨h, hph, hh⟩) hdk, hb, rfl⟩⟩
      · refine ⟨.refl _, .inr (.inr (.inr ⟨rfl, ?_, nodig, by simp [hp], .inl rfl⟩))⟩
        intro k loc hsg
        obtain ⟨k', e'⟩ := nos k loc hsg
        rw [hdk] at e'; cases e'
    · rw [e]
      dsimp only
      have giv : ∀ i, IdentGiven w p i → p.name = i ∧ w.v.ident i = true := by
        rintro i (⟨h, e1, e2⟩ | ⟨-, h⟩)
        · exact absurd ⟨h, i, e1, e2⟩ hno
        · exact h
      refine ex_bind (Q1 := fun r w' t => t = s.tpm ∧ ((∃ h, r = .ok h ∧ Same w w' ∧ w.v.ident p.name = true ∧ w'.hs h = .alive (.ident p.name)) ∨
        (r = .error .signing ∧ w' = w ∧ w.v.ident p.name = false))) ?_ ?_ ?_
      · refine ex_orPib (Q1 := fun r w' t => t = s.tpm ∧ ((∃ h, r = .ok h ∧ Same w w' ∧ w.v.ident p.name = true ∧ w'.hs h = .alive (.ident p.name)) ∨
          (r = .error .pib ∧ w' = w ∧ w.v.ident p.name = false)))
          (ex_getIdentity F hs p.name inv.t (fun h w' hi hsm hh => ⟨rfl, .inl ⟨h, rfl, hsm, hi, hh⟩⟩) (fun hn => ⟨rfl, .inr ⟨rfl, rfl, hn⟩⟩)) ?_ ?_
        · rintro w1 s1 hs1 ⟨ht, ⟨h, e, -⟩ | ⟨-, hr⟩⟩
          · cases e
          · exact ex_raise hs1 _ ⟨ht, .inr ⟨rfl, hr⟩⟩
        · rintro r w1 t1 hr ⟨ht, hx | ⟨e, -⟩⟩
          · exact ⟨ht, .inl hx⟩
          · exact absurd e hr
      · rintro a w1 s1 hs1 ⟨ht, ⟨h, e, hsm, hi, hh⟩ | ⟨e, -⟩⟩
        · injection e with e; subst e
          refine ex_prepareIdent F W hs1 (inv.same hsm ht) hh p (fun k bits w' hsm' hdk hb => ?_) (fun hdk => ?_)
          · rw [hsm.v] at hdk hb ⊢
            exact ⟨hsm.trans hsm', .inl ⟨ht, k, _, bits, .ident hp (.inr ⟨hno, rfl, hi⟩) hdk, hb, rfl⟩⟩
          · rw [hsm.v] at hdk
            refine ⟨hsm, .inr (.inr (.inr ⟨ht, ?_, nodig, by simp [hp], .inl rfl⟩))⟩
            intro k loc hsg
            cases hsg <;> simp_all
            rename_i j hg _
            rw [← (giv _ hg).1] at *
            simp_all
        · cases e
      · rintro e w1 t1 ⟨ht, ⟨h, e', -⟩ | ⟨e', rfl, hr⟩⟩
        · cases e'
        · injection e' with e'; subst e'
          refine ⟨.refl _, .inr (.inr (.inr ⟨ht, ?_, nodig, by simp [hp], .inl rfl⟩))⟩
          intro k loc hsg
          cases hsg <;> simp_all
          rename_i j hg _
          have := giv _ hg
          rw [← this.1] at *
          simp_all
  | key =>
    dsimp only
    have nodig : ¬ Digest w p := by rintro (h | ⟨h, -⟩) <;> simp [hp] at h
    unfold Ex
    rw [bind_ok (at_usableKey hs p.key)]
    rcases filter_key (w := w) (o := p.key) with ⟨h, i, hph, hh, e⟩ | ⟨hno, e⟩
    · rw [e]
      dsimp only
      refine ex_prepareKey F W hs inv hh p none (fun bits hb => ?_)
      exact ⟨.refl _, .inl ⟨rfl, i, _, bits, .key hp (.inl ⟨h, hph, hh⟩), hb, rfl⟩⟩
    · rw [e]
      dsimp only
      have giv : ∀ i, KeyGiven w p i → p.name = i ∧ (w.v.key i).isSome := by
        rintro i (⟨h, e1, e2⟩ | ⟨-, h⟩)
        · exact absurd ⟨h, i, e1, e2⟩ hno
        · exact h
      cases hid : identityOf p.name with
      | none =>
        dsimp only
        have hno' : ∀ i, ¬ KeyName i p.name := by
          intro i hi
          rw [(identityOf_iff _ _).mpr hi] at hid; cases hid
        refine ex_raise hs _ ⟨.refl _, .inr (.inr (.inr ⟨rfl, ?_, nodig, by simp [hp], .inr ⟨rfl, .inl ⟨hp, hno'⟩⟩⟩))⟩
        intro k loc hsg
        cases hsg <;> simp_all
        rename_i hg
        obtain ⟨e1, e2⟩ := giv _ hg
        obtain ⟨j, hj, -⟩ := (F.rep hs.rep).coh.parent k e2
        rw [← e1] at hj
        exact hno' _ hj
      | some i =>
        dsimp only
        have hki := (identityOf_iff _ _).mp hid
        refine ex_bind (Q1 := fun r w' t => t = s.tpm ∧ Same w w' ∧ ((∃ x, r = .ok x ∧ (w.v.key p.name).isSome ∧ w'.hs x = .alive (.key p.name)) ∨
          (r = .error .signing ∧ w.v.key p.name = none)))
          (ex_findKeyOr F hs inv.t hki (fun x w' hsm hks hx => ⟨rfl, hsm, .inl ⟨x, rfl, hks, hx⟩⟩) (fun w' hsm hn => ⟨rfl, hsm, .inr ⟨rfl, hn⟩⟩)) ?_ ?_
        · rintro a w1 s1 hs1 ⟨ht, hsm, ⟨x, e, hks, hx⟩ | ⟨e, -⟩⟩
          · injection e with e; subst e
            refine ex_prepareKey F W hs1 (inv.same hsm ht) hx p none (fun bits hb => ?_)
            rw [hsm.v] at hb
            refine ⟨hsm, .inl ⟨ht, p.name, _, bits, .key hp (.inr ⟨hno, rfl, hks⟩), hb, ?_⟩⟩
            rw [hsm.v]; rfl
          · cases e
        · rintro e w1 t1 ⟨ht, hsm, ⟨x, e', -⟩ | ⟨e', hn⟩⟩
          · cases e'
          · injection e' with e'; subst e'
            refine ⟨hsm, .inr (.inr (.inr ⟨ht, ?_, nodig, by simp [hp], .inl rfl⟩))⟩
            intro k loc hsg
            cases hsg <;> simp_all
            rename_i hg
            obtain ⟨e1, e2⟩ := giv _ hg
            rw [← e1, hn] at e2; cases e2
  | cert =>
    dsimp only
    have nodig : ¬ Digest w p := by rintro (h | ⟨h, -⟩) <;> simp [hp] at h
    cases hid : keyOf p.name with
    | none =>
      dsimp only
      have hno' : ∀ i, ¬ CertName i p.name := by
        intro i hi
        rw [(keyOf_iff _ _).mpr hi] at hid; cases hid
      refine ex_raise hs _ ⟨.refl _, .inr (.inr (.inr ⟨rfl, ?_, nodig, by simp [hp], .inr ⟨rfl, .inr ⟨hp, hno'⟩⟩⟩))⟩
      intro k loc hsg
      cases hsg <;> simp_all
    | some k =>
      dsimp only
      have hc := (keyOf_iff _ _).mp hid
      obtain ⟨i, hi⟩ := hc.2
      rw [(identityOf_iff _ _).mpr hi]
      dsimp only
      refine ex_bind (Q1 := fun r w' t => t = s.tpm ∧ Same w w' ∧ ((∃ x, r = .ok x ∧ (w.v.key k).isSome ∧ w'.hs x = .alive (.key k)) ∨
          (r = .error .signing ∧ w.v.key k = none)))
          (ex_findKeyOr F hs inv.t hi (fun x w' hsm hks hx => ⟨rfl, hsm, .inl ⟨x, rfl, hks, hx⟩⟩) (fun w' hsm hn => ⟨rfl, hsm, .inr ⟨rfl, hn⟩⟩)) ?_ ?_
      · rintro a w1 s1 hs1 ⟨ht, hsm, ⟨x, e, hks, hx⟩ | ⟨e, -⟩⟩
        · injection e with e; subst e
          refine ex_prepareKey F W hs1 (inv.same hsm ht) hx p (some p.name) (fun bits hb => ?_)
          rw [hsm.v] at hb
          exact ⟨hsm, .inl ⟨ht, k, _, bits, .cert hp hc hks, hb, rfl⟩⟩
        · cases e
      · rintro e w1 t1 ⟨ht, hsm, ⟨x, e', -⟩ | ⟨e', hn⟩⟩
        · cases e'
        · injection e' with e'; subst e'
          refine ⟨hsm, .inr (.inr (.inr ⟨ht, ?_, nodig, by simp [hp], .inl rfl⟩))⟩
          intro k' loc hsg
          cases hsg <;> simp_all
          rename_i h1 h2
          have := certName_inj hc h1; subst this
          rw [hn] at h2; cases h2
  | sha256 => exact ex_pure hs _ ⟨.refl _, .inr (.inl ⟨rfl, .inl hp, rfl⟩)⟩
  | hmac =>
    dsimp only
    unfold prepareHmac
    unfold Ex
    rw [bind_ok (at_tpmHas (s := s) p.name)]
    cases hg : get p.name s.tpm.keys with
    | some o =>
      exact ⟨w, hs, ⟨.refl _, .inr (.inr (.inl ⟨hp, .inl ⟨rfl, by rw [hg]; rfl⟩, rfl⟩))⟩, .refl _⟩
    | none =>
      dsimp only [Option.isSome, Bool.false_eq_true, if_false]
      refine ex_bind (Q1 := fun r w' t => r = .ok () ∧ w' = w ∧ t = { s.tpm with keys := put p.name p.hmac s.tpm.keys }) ?_ ?_ ?_
      · simp only [Bool.false_eq_true, if_false]
        unfold tpmImport
        refine ex_bindAt (at_tpmHas (s := s) p.name) ?_
        rw [hg]
        simp only [Option.isSome, Bool.false_eq_true, if_false]
        exact ex_tpmPut hs _ _ ⟨inv.held.put _ hg, inv.certs⟩ ⟨rfl, rfl, rfl⟩
      · rintro a w1 s1 hs1 ⟨-, rfl, ht⟩
        exact ⟨w1, hs1, ⟨.refl _, .inr (.inr (.inl ⟨hp, .inr ⟨hg, ht⟩, rfl⟩))⟩, .refl _⟩
      · rintro e w1 t1 ⟨h, -⟩; cases h

end Ndn.KeyChain
