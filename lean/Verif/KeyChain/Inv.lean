import Verif.KeyChain.Prims
import Verif.KeyChain.Spec
/-
The PIB and the TPM agree.
-/
namespace Ndn.KeyChain
open Ndn.Name Ndn.Tlv Ndn.Block Ndn.Packet Ndn.Pib Ndn.Pib.Spec Ndn.KeyChain.Spec

variable {σ K α β : Type} {b : Backend σ} {R : σ → View → Prop} {A : View → PName → Prop}
  {s : St σ K} {w : World} {C : Crypto K} {v : View} {keys : List (PName × Option K)}

/-- What the TPM stores. -/
def Tpm.priv (t : Tpm K) : PName → Option (Option K) := fun n => get n t.keys

/-- What holds at every moment. -/
def TT (C : Crypto K) (v : View) (keys : List (PName × Option K)) : Prop := Held C v keys ∧ Certs v

structure Inv (C : Crypto K) (w : World) (t : Tpm K) : Prop where
  cache : CacheOk t
  held : Held C w.v t.keys
  certs : Certs w.v

theorem Inv.t {t : Tpm K} (h : Inv C w t) : TT C w.v t.keys := ⟨h.held, h.certs⟩

theorem Inv.move {w' : World} {t t' : Tpm K} (h : Inv C w t) (hv : w'.v = w.v) (ht : Kept t t') : Inv C w' t' :=
  ⟨ht.cache, by rw [hv, ht.keys]; exact h.held, by rw [hv]; exact h.certs⟩

theorem Inv.same {w' : World} {t t' : Tpm K} (h : Inv C w t) (hv : Same w w') (ht : t' = t) : Inv C w' t' :=
  h.move hv.v (by rw [ht]; exact .refl h.cache)

theorem withIdent_key (v : View) (n : PName) : (withIdent v n).key = v.key := by unfold withIdent; split <;> rfl
theorem withIdent_cert (v : View) (n : PName) : (withIdent v n).cert = v.cert := by unfold withIdent; split <;> rfl
theorem withIdent_defKey (v : View) (n : PName) : (withIdent v n).defKey = v.defKey := by unfold withIdent; split <;> rfl
theorem withIdent_defCert (v : View) (n : PName) : (withIdent v n).defCert = v.defCert := by unfold withIdent; split <;> rfl

/-- Only the keys and certificates matter. -/
theorem TT.congr {v' : View} (h : TT C v keys) (hk : v'.key = v.key) (hc : v'.cert = v.cert) : TT C v' keys := by
  refine ⟨fun k bits e => h.1 k bits (by rw [← hk]; exact e), fun c x e => ?_⟩
  rw [hk]
  exact h.2 c x (by rw [← hc]; exact e)

theorem Coherent.noCert (co : Coherent v) {k c : PName} (hk : v.key k = none) (hc : CertName k c) : v.cert c = none := by
  cases e : v.cert c with
  | none => rfl
  | some x =>
    obtain ⟨k', h1, h2⟩ := co.issuer c (by rw [e]; rfl)
    have := certName_inj hc h1; subst this
    rw [hk] at h2; cases h2

theorem Coherent.noDefCert (co : Coherent v) {k : PName} (hk : v.key k = none) : v.defCert k = none := by
  cases e : v.defCert k with
  | none => rfl
  | some x =>
    obtain ⟨h1, h2⟩ := co.cert k x e
    rw [Coherent.noCert co hk h2] at h1; cases h1

theorem Spec.Certs.keyName (co : Coherent v) {c : PName} {x : Crt} (e : v.cert c = some x) : CertName x.keyName c := by
  obtain ⟨k, h1, -⟩ := co.issuer c (by rw [e]; rfl)
  have hn := co.named _ _ e
  rw [← hn] at h1
  rw [crt_keyName h1, ← hn]; exact h1

theorem TT.addKey (h : TT C v keys) (co : Coherent v) {i k : PName} {bits : Bytes} (x : K) (hx : get k keys = some (some x))
    (hm : Match C x bits) (hk : v.key k = none ∨ v.key k = some bits) : TT C (v.addKey i k bits) keys := by
  refine ⟨fun k' bits' e => ?_, fun c y e => ?_⟩
  · simp only [View.addKey, upd] at e
    split at e
    · rename_i hkk; injection e with e; subst e; rw [hkk]; exact ⟨x, hx, hm⟩
    · exact h.1 k' bits' e
  · have e' : v.cert c = some y := e
    have := h.2 c y e'
    simp only [View.addKey, upd]
    split
    · rename_i hkk
      rw [hkk] at this
      rcases hk with hk | hk
      · rw [hk] at this; cases this
      · rw [hk] at this; exact this
    · exact this

theorem TT.addCert (h : TT C v keys) {c : Crt} (hk : v.key c.keyName = some c.pub) : TT C (v.addCert c) keys := by
  have ek : (v.addCert c).key = v.key := by
    funext k
    simp only [View.addCert, View.addKey, upd]
    split
    · rename_i e; rw [e, hk]
    · rfl
  refine ⟨fun k bits e => h.1 k bits (by rw [← ek]; exact e), fun n x e => ?_⟩
  rw [ek]
  simp only [View.addCert, upd] at e
  split at e
  · injection e with e; subst e; exact hk
  · exact h.2 n x e

theorem TT.removeKey (h : TT C v keys) (co : Coherent v) (k : PName) : TT C (v.removeKey k) keys := by
  refine ⟨fun k' bits e => ?_, fun c x e => ?_⟩
  · simp only [View.removeKey, upd] at e
    split at e
    · cases e
    · exact h.1 k' bits e
  · simp only [View.removeKey] at e
    split at e
    · cases e
    · rename_i hn
      have hc := Certs.keyName co e
      have := h.2 c x e
      simp only [View.removeKey, upd]
      rw [if_neg]
      · exact this
      · intro e'; subst e'
        exact hn (by simp [isCertOf, (keyOf_iff _ _).mpr hc])

theorem TT.removeIdent (h : TT C v keys) (co : Coherent v) (i : PName) : TT C (v.removeIdent i) keys := by
  refine ⟨fun k' bits e => ?_, fun c x e => ?_⟩
  · simp only [View.removeIdent] at e
    split at e
    · cases e
    · exact h.1 k' bits e
  · simp only [View.removeIdent] at e
    split at e
    · cases e
    · rename_i hn
      have hc := Certs.keyName co e
      have := h.2 c x e
      simp only [View.removeIdent]
      rw [if_neg]
      · exact this
      · intro e'
        refine hn ?_
        simp only [isKeyOf, isCertOfIdent, decide_eq_true_eq] at e' ⊢
        rw [(keyOf_iff _ _).mpr hc]; exact e'

theorem TT.removeCert (h : TT C v keys) (c : PName) : TT C (v.removeCert c) keys := by
  refine ⟨h.1, fun n x e => ?_⟩
  simp only [View.removeCert, upd] at e
  split at e
  · cases e
  · exact h.2 n x e

theorem Spec.Held.put (h : Held C v keys) {n : PName} (k : Option K) (hn : get n keys = none) : Held C v (put n k keys) := by
  intro k' bits e
  obtain ⟨x, hx, hm⟩ := h k' bits e
  refine ⟨x, ?_, hm⟩
  rw [get_put, if_neg]
  · exact hx
  · intro e'; rw [e', hn] at hx; cases hx

theorem Spec.Held.del (h : Held C v keys) {n : PName} (hn : v.key n = none) : Held C v (del n keys) := by
  intro k' bits e
  obtain ⟨x, hx, hm⟩ := h k' bits e
  refine ⟨x, ?_, hm⟩
  rw [get_del, if_neg]
  · exact hx
  · intro e'; rw [e', hn] at e; cases e

theorem CacheOk.put {t : Tpm K} (h : CacheOk t) {n : PName} (k : Option K) (hn : get n t.keys = none) :
    CacheOk { t with keys := put n k t.keys } := by
  intro x y e
  have := h x y e
  dsimp only
  rw [get_put, if_neg]
  · exact this
  · intro e'; rw [e', hn] at this; cases this

theorem CacheOk.put2 {t : Tpm K} (h : CacheOk t) {n : PName} (k : K) :
    CacheOk ⟨Pib.put n (some k) t.keys, Pib.put n k t.cache⟩ := by
  intro x y e
  dsimp only at e ⊢
  rw [get_put] at e ⊢
  split at e
  · rename_i hx; injection e with e; subst e; rw [if_pos hx]
  · rename_i hx; rw [if_neg hx]; exact h x y e

theorem CacheOk.del {t : Tpm K} (h : CacheOk t) (n : PName) : CacheOk ⟨Pib.del n t.keys, Pib.del n t.cache⟩ := by
  intro x y e
  dsimp only at e ⊢
  rw [get_del] at e ⊢
  split at e
  · cases e
  · rename_i hx; rw [if_neg hx]; exact h x y e

theorem Inv.init : Inv C World.init Tpm.init :=
  ⟨(fun _ _ h => by cases h), (fun _ _ h => by cases h), (fun _ _ h => by cases h)⟩

/-! ## Growth -/

theorem Spec.Grows.refl (v : View) : Grows v v := ⟨fun _ h => h, fun _ _ h => h, fun _ h => h, fun _ h => h, fun _ _ h => h, fun _ _ h => h⟩

theorem Spec.Grows.trans {v1 v2 v3 : View} (h : Grows v1 v2) (h' : Grows v2 v3) : Grows v1 v3 :=
  ⟨fun _ e => h'.1 _ (h.1 _ e), fun _ _ e => h'.2 _ _ (h.2 _ _ e), fun _ e => h'.3 _ (h.3 _ e), fun _ e => h'.4 _ (h.4 _ e),
    fun _ _ e => h'.5 _ _ (h.5 _ _ e), fun _ _ e => h'.6 _ _ (h.6 _ _ e)⟩

theorem Spec.Grows.addIdent (v : View) (n : PName) : Grows v (v.addIdent n) := by
  refine ⟨fun i h => ?_, fun _ _ h => h, fun _ h => h, fun i h => ?_, fun _ _ h => h, fun _ _ h => h⟩
  · simp only [View.addIdent, upd]; split
    · rfl
    · exact h
  · simp only [View.addIdent, orElse, h]; rfl

theorem Spec.Grows.withIdent (v : View) (n : PName) : Grows v (withIdent v n) := by
  unfold Pib.Spec.withIdent; split
  · exact .refl _
  · exact .addIdent _ _

theorem Spec.Grows.addKey (v : View) (i k : PName) (bits : Bytes) (hk : v.key k = none ∨ v.key k = some bits) : Grows v (v.addKey i k bits) := by
  refine (Grows.addIdent v i).trans ⟨fun _ h => h, fun n x h => ?_, fun _ h => h, fun _ h => h, fun j x h => ?_, fun _ _ h => h⟩
  · simp only [View.addKey, upd]; split
    · rename_i e; subst e
      have h' : v.key n = some x := h
      rcases hk with hk | hk
      · rw [hk] at h'; cases h'
      · rw [hk] at h'; exact h'
    · exact h
  · have h' : v.defKey j = some x := h
    simp only [View.addKey, upd, orElse]; split
    · rename_i e; subst e; rw [h']; rfl
    · exact h'

theorem Spec.Grows.addCert (v : View) (c : Crt) (hk : v.key c.keyName = some c.pub) : Grows v (v.addCert c) := by
  refine (Grows.addKey v c.identity c.keyName c.pub (.inr hk)).trans
    ⟨fun _ h => h, fun _ _ h => h, fun n h => ?_, fun _ h => h, fun _ _ h => h, fun j x h => ?_⟩
  · have h' : (v.cert n).isSome := h
    simp only [View.addCert, upd]; split
    · rfl
    · exact h'
  · have h' : v.defCert j = some x := h
    simp only [View.addCert, upd, orElse]; split
    · rename_i e; subst e; rw [h']; rfl
    · exact h'

end Ndn.KeyChain
