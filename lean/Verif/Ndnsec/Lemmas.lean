import Verif.Ndnsec.Spec
import Verif.KeyChain.Hist
import Verif.KeyChain.SignLemmas
namespace Ndn.Ndnsec
open Ndn.Name Ndn.Tlv Ndn.Block Ndn.Packet Ndn.Pib Ndn.Pib.Spec Ndn.KeyChain Ndn.KeyChain.Spec Ndn.Ndnsec.Spec

variable {σ K α β : Type} {b : Backend σ} {R : σ → View → Prop} {A : View → PName → Prop}
  {T : View → List (PName × Option K) → Prop} {s : St σ K} {w : World} {C : Crypto K}

theorem keyName_identity {i j k : PName} (h : KeyName i k) (h' : KeyName j k) : i = j := by
  have := (identityOf_iff i k).mpr h
  rw [(identityOf_iff j k).mpr h'] at this
  injection this with this; exact this.symm

theorem certName_key {k j c : PName} (h : CertName k c) (h' : CertName j c) : k = j := by
  have := (keyOf_iff k c).mpr h
  rw [(keyOf_iff j c).mpr h'] at this
  injection this with this; exact this.symm

/-- Nothing was changed by a look-up. -/
structure Looked (w w' : World) (s s' : St σ K) : Prop where
  same : Same w w'
  tpm : s'.tpm = s.tpm

theorem Looked.trans {w1 w2 w3 : World} {s1 s2 s3 : St σ K} (h : Looked w1 w2 s1 s2) (h' : Looked w2 w3 s2 s3) : Looked w1 w3 s1 s3 :=
  ⟨h.same.trans h'.same, h'.tpm.trans h.tpm⟩

theorem Looked.ok {w' : World} {s' : St σ K} (h : Looked w w' s s') (hT : T w.v s.tpm.keys) : T w'.v s'.tpm.keys := by
  rw [h.same.v, h.tpm]; exact hT

section
variable (F : Faithful b R A) (hs : Sim R s.pib w)
include F hs

theorem exb_getIdentity (n : PName) (hT : T w.v s.tpm.keys) {f : Nat → KM σ K β} {Q : Except Err β → World → Tpm K → Prop}
    (h1 : ∀ h w1 (s1 : St σ K), Sim R s1.pib w1 → Looked w w1 s s1 → w.v.ident n = true → w1.hs h = .alive (.ident n) → Ex R T s1 (f h) Q)
    (h2 : w.v.ident n = false → Q (.error .pib) w s.tpm) : Ex R T s (pibIdent b (.getIdentity n) >>= f) Q := by
  refine ex_bind (Q1 := fun r w' t' => t' = s.tpm ∧ ((∃ h, r = .ok h ∧ w.v.ident n = true ∧ Same w w' ∧ w'.hs h = .alive (.ident n)) ∨
      (r = .error .pib ∧ w' = w ∧ w.v.ident n = false)))
    (ex_getIdentity F hs n hT (fun h w' a1 a2 a3 => ⟨rfl, .inl ⟨h, rfl, a1, a2, a3⟩⟩) (fun h => ⟨rfl, .inr ⟨rfl, rfl, h⟩⟩)) ?_ ?_
  · rintro a w1 s1 hs1 ⟨ht, ⟨h, e, a1, a2, a3⟩ | ⟨e, -⟩⟩
    · injection e with e; subst e
      exact h1 _ w1 s1 hs1 ⟨a2, ht⟩ a1 a3
    · cases e
  · rintro e w1 t1 ⟨ht, ⟨h, e', -⟩ | ⟨e', rfl, hn⟩⟩
    · cases e'
    · injection e' with e'; subst e'; rw [ht]; exact h2 hn

theorem exb_getDefaultIdentity (hT : T w.v s.tpm.keys) {f : Nat → KM σ K β} {Q : Except Err β → World → Tpm K → Prop}
    (h1 : ∀ h n w1 (s1 : St σ K), Sim R s1.pib w1 → Looked w w1 s s1 → w.v.defIdent = some n → w1.hs h = .alive (.ident n) → Ex R T s1 (f h) Q)
    (h2 : w.v.defIdent = none → Q (.error .pib) w s.tpm) : Ex R T s (pibIdent b .getDefaultIdentity >>= f) Q := by
  refine ex_bind (Q1 := fun r w' t' => t' = s.tpm ∧ ((∃ h n, r = .ok h ∧ w.v.defIdent = some n ∧ Same w w' ∧ w'.hs h = .alive (.ident n)) ∨
      (r = .error .pib ∧ w' = w ∧ w.v.defIdent = none)))
    (ex_getDefaultIdentity F hs hT (fun h n w' a1 a2 a3 => ⟨rfl, .inl ⟨h, n, rfl, a1, a2, a3⟩⟩) (fun h => ⟨rfl, .inr ⟨rfl, rfl, h⟩⟩)) ?_ ?_
  · rintro a w1 s1 hs1 ⟨ht, ⟨h, n, e, a1, a2, a3⟩ | ⟨e, -⟩⟩
    · injection e with e; subst e
      exact h1 _ n w1 s1 hs1 ⟨a2, ht⟩ a1 a3
    · cases e
  · rintro e w1 t1 ⟨ht, ⟨h, n, e', -⟩ | ⟨e', rfl, hn⟩⟩
    · cases e'
    · injection e' with e'; subst e'; rw [ht]; exact h2 hn

theorem exb_getDefaultKey {h : Nat} {i : PName} (hh : w.hs h = .alive (.ident i)) (hT : T w.v s.tpm.keys) {f : Nat → KM σ K β}
    {Q : Except Err β → World → Tpm K → Prop}
    (h1 : ∀ x k w1 (s1 : St σ K), Sim R s1.pib w1 → Looked w w1 s s1 → w.v.defKey i = some k → w1.hs x = .alive (.key k) → Ex R T s1 (f x) Q)
    (h2 : w.v.defKey i = none → Q (.error .pib) w s.tpm) : Ex R T s (pibKey b (.getDefaultKey h) >>= f) Q := by
  refine ex_bind (Q1 := fun r w' t' => t' = s.tpm ∧ ((∃ x n, r = .ok x ∧ w.v.defKey i = some n ∧ Same w w' ∧ w'.hs x = .alive (.key n)) ∨
      (r = .error .pib ∧ w' = w ∧ w.v.defKey i = none)))
    (ex_getDefaultKey F hs hh hT (fun h n w' a1 a2 a3 => ⟨rfl, .inl ⟨h, n, rfl, a1, a2, a3⟩⟩) (fun h => ⟨rfl, .inr ⟨rfl, rfl, h⟩⟩)) ?_ ?_
  · rintro a w1 s1 hs1 ⟨ht, ⟨h, n, e, a1, a2, a3⟩ | ⟨e, -⟩⟩
    · injection e with e; subst e
      exact h1 _ n w1 s1 hs1 ⟨a2, ht⟩ a1 a3
    · cases e
  · rintro e w1 t1 ⟨ht, ⟨h, n, e', -⟩ | ⟨e', rfl, hn⟩⟩
    · cases e'
    · injection e' with e'; subst e'; rw [ht]; exact h2 hn

theorem exb_getKey {h : Nat} {i k : PName} (hh : w.hs h = .alive (.ident i)) (hk : KeyName i k) (hT : T w.v s.tpm.keys) {f : Nat → KM σ K β}
    {Q : Except Err β → World → Tpm K → Prop}
    (h1 : ∀ x w1 (s1 : St σ K), Sim R s1.pib w1 → Looked w w1 s s1 → (w.v.key k).isSome → w1.hs x = .alive (.key k) → Ex R T s1 (f x) Q)
    (h2 : w.v.key k = none → Q (.error .pib) w s.tpm) : Ex R T s (pibKey b (.getKey h k) >>= f) Q := by
  refine ex_bind (Q1 := fun r w' t' => t' = s.tpm ∧ ((∃ x, r = .ok x ∧ (w.v.key k).isSome ∧ Same w w' ∧ w'.hs x = .alive (.key k)) ∨
      (r = .error .pib ∧ w' = w ∧ w.v.key k = none)))
    (ex_getKey F hs hh hk hT (fun h w' a1 a2 a3 => ⟨rfl, .inl ⟨h, rfl, a1, a2, a3⟩⟩) (fun h => ⟨rfl, .inr ⟨rfl, rfl, h⟩⟩)) ?_ ?_
  · rintro a w1 s1 hs1 ⟨ht, ⟨h, e, a1, a2, a3⟩ | ⟨e, -⟩⟩
    · injection e with e; subst e
      exact h1 _ w1 s1 hs1 ⟨a2, ht⟩ a1 a3
    · cases e
  · rintro e w1 t1 ⟨ht, ⟨h, e', -⟩ | ⟨e', rfl, hn⟩⟩
    · cases e'
    · injection e' with e'; subst e'; rw [ht]; exact h2 hn

theorem exb_getDefaultCert {h : Nat} {k : PName} (hh : w.hs h = .alive (.key k)) (hT : T w.v s.tpm.keys) {f : Crt → KM σ K β}
    {Q : Except Err β → World → Tpm K → Prop}
    (h1 : ∀ c (s1 : St σ K), Sim R s1.pib w → s1.tpm = s.tpm → w.v.defCert k = some c.name → w.v.cert c.name = some c → Ex R T s1 (f c) Q)
    (h2 : w.v.defCert k = none → Q (.error .pib) w s.tpm) : Ex R T s (pibCert b (.getDefaultCert h) >>= f) Q := by
  refine ex_bind (Q1 := fun r w' t' => t' = s.tpm ∧ w' = w ∧ ((∃ c, r = .ok c ∧ w.v.defCert k = some c.name ∧ w.v.cert c.name = some c) ∨
      (r = .error .pib ∧ w.v.defCert k = none)))
    (ex_getDefaultCert F hs hh hT (fun c a1 a2 => ⟨rfl, rfl, .inl ⟨c, rfl, a1, a2⟩⟩) (fun h => ⟨rfl, rfl, .inr ⟨rfl, h⟩⟩)) ?_ ?_
  · rintro a w1 s1 hs1 ⟨ht, rfl, ⟨c, e, a1, a2⟩ | ⟨e, -⟩⟩
    · injection e with e; subst e
      exact h1 _ s1 hs1 ht a1 a2
    · cases e
  · rintro e w1 t1 ⟨ht, rfl, ⟨h, e', -⟩ | ⟨e', hn⟩⟩
    · cases e'
    · injection e' with e'; subst e'; rw [ht]; exact h2 hn

theorem ex_getCert {h : Nat} {k n : PName} (hh : w.hs h = .alive (.key k)) (hn : CertName k n) (hT : T w.v s.tpm.keys)
    {Q : Except Err Crt → World → Tpm K → Prop} (h1 : ∀ c, w.v.cert n = some c → Q (.ok c) w s.tpm) (h2 : w.v.cert n = none → Q (.error .pib) w s.tpm) :
    Ex R T s (pibCert b (.getCert h n)) Q := by
  refine ex_wrap F hs (.getCert h n) trivial trivial (fun _ _ h => by cases h) ?_ _
    (fun o => match outErr o with | some e => .error e | none => match o with | .cert h => .ok h | _ => .error .ub) ?_ ?_ ?_
  · intro out w' h
    simp only [Step, onKey, hh, if_pos hn] at h
    split at h <;> (obtain ⟨-, rfl⟩ := h; exact hT)
  · intro o e h; simp only [h]
  · intro o s h; simp only [h]; cases o <;> first | rfl | (cases h)
  · intro out w' h
    simp only [Step, onKey, hh, if_pos hn] at h
    split at h
    · rename_i x hx
      obtain ⟨rfl, rfl⟩ := h
      exact h1 x hx
    · rename_i hx
      obtain ⟨rfl, rfl⟩ := h
      exact h2 hx

theorem exb_getCert {h : Nat} {k n : PName} (hh : w.hs h = .alive (.key k)) (hn : CertName k n) (hT : T w.v s.tpm.keys) {f : Crt → KM σ K β}
    {Q : Except Err β → World → Tpm K → Prop}
    (h1 : ∀ c (s1 : St σ K), Sim R s1.pib w → s1.tpm = s.tpm → w.v.cert n = some c → Ex R T s1 (f c) Q)
    (h2 : w.v.cert n = none → Q (.error .pib) w s.tpm) : Ex R T s (pibCert b (.getCert h n) >>= f) Q := by
  refine ex_bind (Q1 := fun r w' t' => t' = s.tpm ∧ w' = w ∧ ((∃ c, r = .ok c ∧ w.v.cert n = some c) ∨ (r = .error .pib ∧ w.v.cert n = none)))
    (ex_getCert F hs hh hn hT (fun c a1 => ⟨rfl, rfl, .inl ⟨c, rfl, a1⟩⟩) (fun h => ⟨rfl, rfl, .inr ⟨rfl, h⟩⟩)) ?_ ?_
  · rintro a w1 s1 hs1 ⟨ht, rfl, ⟨c, e, a1⟩ | ⟨e, -⟩⟩
    · injection e with e; subst e
      exact h1 _ s1 hs1 ht a1
    · cases e
  · rintro e w1 t1 ⟨ht, rfl, ⟨h, e', -⟩ | ⟨e', hn⟩⟩
    · cases e'
    · injection e' with e'; subst e'; rw [ht]; exact h2 hn

/-- The identity and the key are looked up by the name of the key. -/
theorem exb_keyByName (n : PName) (hT : T w.v s.tpm.keys) {f : Nat × Nat → KM σ K β} {Q : Except Err β → World → Tpm K → Prop}
    (h1 : ∀ i p w1 (s1 : St σ K), Sim R s1.pib w1 → Looked w w1 s s1 → KeyName i n → (w.v.key n).isSome → w1.hs p.1 = .alive (.ident i) →
      w1.hs p.2 = .alive (.key n) → Ex R T s1 (f p) Q)
    (h2 : ∀ e w1, w.v.key n = none → Same w w1 → (e = .pib ∨ e = .invalid) → Q (.error e) w1 s.tpm) :
    Ex R T s (keyByName b n >>= f) Q := by
  have co := (F.rep hs.rep).coh
  refine ex_bind (Q1 := fun r w' t' => t' = s.tpm ∧ Same w w' ∧ ((∃ i p, r = .ok p ∧ KeyName i n ∧ (w.v.key n).isSome ∧ w'.hs p.1 = .alive (.ident i) ∧
      w'.hs p.2 = .alive (.key n)) ∨ (∃ e, r = .error e ∧ (e = .pib ∨ e = .invalid) ∧ w.v.key n = none))) ?_ ?_ ?_
  · unfold keyByName
    cases hi : identityOf n with
    | none =>
      refine ex_raise hs _ ⟨rfl, .refl _, .inr ⟨_, rfl, .inr rfl, ?_⟩⟩
      cases hk : w.v.key n with
      | none => rfl
      | some x =>
        obtain ⟨i, hi', -⟩ := co.parent n (by rw [hk]; rfl)
        rw [(identityOf_iff _ _).mpr hi'] at hi; cases hi
    | some i =>
      have hk := (identityOf_iff _ _).mp hi
      refine exb_getIdentity F hs i hT (fun h w1 s1 hs1 l1 hid hh => ?_) (fun hid => ⟨rfl, .refl _, .inr ⟨_, rfl, .inl rfl, ?_⟩⟩)
      · refine exb_getKey F hs1 hh hk (l1.ok hT) (fun x w2 s2 hs2 l2 hx hh2 => ?_) (fun hx => ⟨l1.tpm, l1.same, .inr ⟨_, rfl, .inl rfl, by rw [← l1.same.v]; exact hx⟩⟩)
        refine ex_pure hs2 _ ⟨(l1.trans l2).tpm, (l1.trans l2).same, .inl ⟨i, _, rfl, hk, by rw [← l1.same.v]; exact hx, l2.same.live _ _ hh, hh2⟩⟩
      · cases hx : w.v.key n with
        | none => rfl
        | some x =>
          obtain ⟨j, hj, hj'⟩ := co.parent n (by rw [hx]; rfl)
          rw [keyName_identity hj hk, hid] at hj'; cases hj'
  · rintro p w1 s1 hs1 ⟨ht, hsm, ⟨i, p', e, a1, a2, a3, a4⟩ | ⟨e, e', -⟩⟩
    · injection e with e; subst e
      exact h1 i _ w1 s1 hs1 ⟨hsm, ht⟩ a1 a2 a3 a4
    · cases e'
  · rintro e w1 t1 ⟨ht, hsm, ⟨i, p', e', -⟩ | ⟨e', e'', a1, a2⟩⟩
    · cases e'
    · injection e'' with e''; subst e''; rw [ht]; exact h2 _ w1 a2 hsm a1

theorem certIdentity_iff (i n : PName) : certIdentity n = some i ↔ ∃ k, CertName k n ∧ KeyName i k := by
  constructor
  · intro h
    unfold certIdentity at h
    split at h
    · rename_i hv
      obtain ⟨k, hk⟩ := (validCert_iff n).mp hv
      have := crt_identity (c := ⟨n, [], []⟩) hk
      injection h with h
      exact ⟨k, hk, h ▸ this⟩
    · cases h
  · rintro ⟨k, hk, hi⟩
    unfold certIdentity
    rw [if_pos ((validCert_iff n).mpr ⟨k, hk⟩)]
    have := crt_identity (c := ⟨n, [], []⟩) hk
    exact congrArg some (keyName_identity this hi)

/-- The identity and the key are looked up by the name of a certificate. -/
theorem exb_keyByCert (n : PName) (hT : T w.v s.tpm.keys) {f : Nat × Nat → KM σ K β} {Q : Except Err β → World → Tpm K → Prop}
    (h1 : ∀ i k p w1 (s1 : St σ K), Sim R s1.pib w1 → Looked w w1 s s1 → KeyName i k → CertName k n → (w.v.key k).isSome →
      w1.hs p.1 = .alive (.ident i) → w1.hs p.2 = .alive (.key k) → Ex R T s1 (f p) Q)
    (h2 : ∀ e w1, w.v.cert n = none → Same w w1 → (e = .pib ∨ e = .invalid) → Q (.error e) w1 s.tpm) :
    Ex R T s (keyByCert b n >>= f) Q := by
  have co := (F.rep hs.rep).coh
  refine ex_bind (Q1 := fun r w' t' => t' = s.tpm ∧ Same w w' ∧ ((∃ i k p, r = .ok p ∧ KeyName i k ∧ CertName k n ∧ (w.v.key k).isSome ∧
      w'.hs p.1 = .alive (.ident i) ∧ w'.hs p.2 = .alive (.key k)) ∨ (∃ e, r = .error e ∧ (e = .pib ∨ e = .invalid) ∧ w.v.cert n = none))) ?_ ?_ ?_
  · unfold keyByCert
    cases hi : certIdentity n with
    | none =>
      refine ex_raise hs _ ⟨rfl, .refl _, .inr ⟨_, rfl, .inr rfl, ?_⟩⟩
      cases hk : w.v.cert n with
      | none => rfl
      | some x =>
        obtain ⟨k, hk1, hk2⟩ := co.issuer n (by rw [hk]; rfl)
        obtain ⟨i, hi'⟩ := hk1.2
        rw [(certIdentity_iff F hs i n).mpr ⟨k, hk1, hi'⟩] at hi; cases hi
    | some i =>
      obtain ⟨k, hc, hk⟩ := (certIdentity_iff F hs i n).mp hi
      have nocert : w.v.key k = none → w.v.cert n = none := by
        intro hx
        cases hz : w.v.cert n with
        | none => rfl
        | some z =>
          obtain ⟨k', hk1, hk2⟩ := co.issuer n (by rw [hz]; rfl)
          rw [certName_key hk1 hc, hx] at hk2; cases hk2
      refine exb_getIdentity F hs i hT (fun h w1 s1 hs1 l1 hid hh => ?_) (fun hid => ⟨rfl, .refl _, .inr ⟨_, rfl, .inl rfl, nocert ?_⟩⟩)
      · rw [(keyOf_iff _ _).mpr hc]
        refine exb_getKey F hs1 hh hk (l1.ok hT) (fun x w2 s2 hs2 l2 hx hh2 => ?_)
          (fun hx => ⟨l1.tpm, l1.same, .inr ⟨_, rfl, .inl rfl, nocert (by rw [← l1.same.v]; exact hx)⟩⟩)
        refine ex_pure hs2 _ ⟨(l1.trans l2).tpm, (l1.trans l2).same, .inl ⟨i, k, _, rfl, hk, hc, by rw [← l1.same.v]; exact hx, l2.same.live _ _ hh, hh2⟩⟩
      · cases hx : w.v.key k with
        | none => rfl
        | some x =>
          obtain ⟨j, hj, hj'⟩ := co.parent k (by rw [hx]; rfl)
          rw [keyName_identity hj hk, hid] at hj'; cases hj'
  · rintro p w1 s1 hs1 ⟨ht, hsm, ⟨i, k, p', e, a1, a2, a3, a4, a5⟩ | ⟨e, e', -⟩⟩
    · injection e with e; subst e
      exact h1 i k _ w1 s1 hs1 ⟨hsm, ht⟩ a1 a2 a3 a4 a5
    · cases e'
  · rintro e w1 t1 ⟨ht, hsm, ⟨i, k, p', e', -⟩ | ⟨e', e'', a1, a2⟩⟩
    · cases e'
    · injection e'' with e''; subst e''; rw [ht]; exact h2 _ w1 a2 hsm a1

end

end Ndn.Ndnsec
