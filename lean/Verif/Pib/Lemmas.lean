import Verif.Pib.Spec
namespace Ndn.Pib
open Ndn.Name Spec

/-! ## Names -/

theorem identityOf_iff (i k : PName) : identityOf k = some i ↔ KeyName i k := by
  unfold identityOf validKey KeyName
  constructor
  · intro h
    split at h
    · rename_i hv
      simp only [Bool.and_eq_true, decide_eq_true_eq, beq_iff_eq] at hv
      obtain ⟨h2, hk⟩ := hv
      injection h with h
      subst h
      have hl : k.length - 1 < k.length := by omega
      refine ⟨k[k.length - 1], ?_⟩
      obtain ⟨hlt, hk⟩ := List.getElem?_eq_some_iff.1 hk
      conv => lhs; rw [← List.take_append_drop (k.length - 2) k]
      congr 1
      rw [List.drop_eq_getElem_cons hlt, hk]
      have e : k.length - 2 + 1 = k.length - 1 := by omega
      rw [e, List.drop_eq_getElem_cons hl]
      have e2 : k.length - 1 + 1 = k.length := by omega
      rw [e2, List.drop_length]
    · cases h
  · rintro ⟨x, rfl⟩
    simp

theorem keyName_inj {i j k : PName} (h : KeyName i k) (h' : KeyName j k) : i = j := by
  rw [← identityOf_iff] at h h'
  rw [h] at h'; exact Option.some.inj h'

theorem keyOf_iff (k c : PName) : keyOf c = some k ↔ CertName k c := by
  unfold keyOf validCert CertName KeyName
  constructor
  · intro h
    split at h
    · rename_i hv
      simp only [Bool.and_eq_true, decide_eq_true_eq, beq_iff_eq] at hv
      obtain ⟨h2, hk⟩ := hv
      injection h with h
      subst h
      obtain ⟨hlt, hk⟩ := List.getElem?_eq_some_iff.1 hk
      have l1 : c.length - 4 + 1 < c.length := by omega
      have l2 : c.length - 4 + 1 + 1 < c.length := by omega
      have l3 : c.length - 4 + 1 + 1 + 1 < c.length := by omega
      have e : c = c.take (c.length - 4) ++ [keyComp, c[c.length - 4 + 1], c[c.length - 4 + 1 + 1], c[c.length - 4 + 1 + 1 + 1]] := by
        conv => lhs; rw [← List.take_append_drop (c.length - 4) c]
        congr 1
        rw [List.drop_eq_getElem_cons hlt, hk, List.drop_eq_getElem_cons l1, List.drop_eq_getElem_cons l2, List.drop_eq_getElem_cons l3]
        have : c.length - 4 + 1 + 1 + 1 + 1 = c.length := by omega
        rw [this, List.drop_length]
      generalize c.take (c.length - 4) = p at e
      generalize c[c.length - 4 + 1] = x at e
      generalize c[c.length - 4 + 1 + 1] = y at e
      generalize c[c.length - 4 + 1 + 1 + 1] = z at e
      subst e
      have : List.take ((p ++ [keyComp, x, y, z]).length - 2) (p ++ [keyComp, x, y, z]) = p ++ [keyComp, x] := by
        simp only [List.length_append, List.length_cons, List.length_nil]
        have : p.length + (0 + 1 + 1 + 1 + 1) - 2 = p.length + 2 := by omega
        rw [this, List.take_append]
        simp
        exact List.take_of_length_le (by omega)
      rw [this]
      exact ⟨⟨y, z, by simp⟩, p, x, rfl⟩
    · cases h
  · rintro ⟨⟨y, z, rfl⟩, i, x, rfl⟩
    have : List.take ((i ++ [keyComp, x] ++ [y, z]).length - 2) (i ++ [keyComp, x] ++ [y, z]) = i ++ [keyComp, x] := by
      simp [List.take_append]
      exact List.take_of_length_le (by omega)
    rw [this]
    simp

theorem certName_inj {i j c : PName} (h : CertName i c) (h' : CertName j c) : i = j := by
  rw [← keyOf_iff] at h h'
  rw [h] at h'; exact Option.some.inj h'

theorem crt_keyName {c : Crt} {k : PName} (h : CertName k c.name) : c.keyName = k := by
  obtain ⟨⟨y, z, e⟩, i, x, rfl⟩ := h
  simp [Crt.keyName, e, List.take_append]
  exact List.take_of_length_le (by omega)

theorem crt_identity {c : Crt} {k : PName} (h : CertName k c.name) : KeyName c.identity k := by
  obtain ⟨⟨y, z, e⟩, i, x, rfl⟩ := h
  refine ⟨x, ?_⟩
  simp [Crt.identity, e]

theorem validKey_iff (k : PName) : validKey k = true ↔ ∃ i, KeyName i k := by
  constructor
  · intro h
    exact ⟨_, (identityOf_iff _ k).1 (by unfold identityOf; rw [if_pos h])⟩
  · rintro ⟨i, h⟩
    rw [← identityOf_iff] at h
    unfold identityOf at h
    split at h
    · assumption
    · cases h

theorem validCert_iff (c : PName) : validCert c = true ↔ ∃ k, CertName k c := by
  constructor
  · intro h
    exact ⟨_, (keyOf_iff _ c).1 (by unfold keyOf; rw [if_pos h])⟩
  · rintro ⟨i, h⟩
    rw [← keyOf_iff] at h
    unfold keyOf at h
    split at h
    · assumption
    · cases h

theorem isKeyOf_iff (i k : PName) : isKeyOf i k = true ↔ KeyName i k := by simp [isKeyOf, identityOf_iff]
theorem isCertOf_iff (k c : PName) : isCertOf k c = true ↔ CertName k c := by simp [isCertOf, keyOf_iff]
theorem isCertOfIdent_iff (i c : PName) : isCertOfIdent i c = true ↔ ∃ k, CertName k c ∧ KeyName i k := by
  simp only [isCertOfIdent, decide_eq_true_eq, Option.bind_eq_some_iff, keyOf_iff, identityOf_iff]

/-! ## The specification is coherent -/

theorem orElse_some {d : Option PName} {n m : PName} : orElse d n = some m ↔ d = some m ∨ (d = none ∧ m = n) := by
  unfold orElse
  cases d <;> simp [eq_comm]

theorem dropDefault_some {d : Option PName} {n m : PName} : dropDefault d n = some m ↔ d = some m ∧ m ≠ n := by
  unfold dropDefault
  split
  · rename_i h; subst h; simp [eq_comm]
  · rename_i h
    constructor
    · intro e; subst e; exact ⟨rfl, fun e => h (by rw [e])⟩
    · exact fun e => e.1

theorem coherent_empty : Coherent View.empty := by
  constructor <;> simp [View.empty]

theorem coherent_addIdent {v : View} (hv : Coherent v) (i : PName) : Coherent (v.addIdent i) := by
  constructor
  · intro j h
    simp only [View.addIdent, orElse_some, upd] at h ⊢
    rcases h with h | ⟨_, rfl⟩
    · split
      · rfl
      · exact hv.ident _ h
    · simp
  · exact hv.key
  · exact hv.cert
  · intro k h
    obtain ⟨j, hj, hi⟩ := hv.parent k h
    refine ⟨j, hj, ?_⟩
    simp only [View.addIdent, upd]
    split
    · rfl
    · exact hi
  · exact hv.issuer
  · exact hv.named

theorem coherent_addKey {v : View} (hv : Coherent v) {i k : PName} (bits : Bytes) (hk : KeyName i k) :
    Coherent (v.addKey i k bits) := by
  have ha := coherent_addIdent hv i
  constructor
  · exact ha.ident
  · intro j l h
    simp only [View.addKey, View.addIdent, upd] at h ⊢
    split at h
    · rename_i e
      subst e
      rw [orElse_some] at h
      rcases h with h | ⟨_, rfl⟩
      · refine ⟨?_, (hv.key _ _ h).2⟩
        split
        · rfl
        · exact (hv.key _ _ h).1
      · simp [hk]
    · refine ⟨?_, (hv.key _ _ h).2⟩
      split
      · rfl
      · exact (hv.key _ _ h).1
  · exact hv.cert
  · intro l h
    simp only [View.addKey, View.addIdent, upd] at h ⊢
    split at h
    · rename_i e
      subst e
      exact ⟨i, hk, by simp⟩
    · obtain ⟨j, hj, hi⟩ := hv.parent l h
      refine ⟨j, hj, ?_⟩
      split
      · rfl
      · exact hi
  · intro c h
    obtain ⟨l, hl, hi⟩ := hv.issuer c h
    refine ⟨l, hl, ?_⟩
    simp only [View.addKey, View.addIdent, upd]
    split
    · rfl
    · exact hi
  · exact hv.named

theorem coherent_addCert {v : View} (hv : Coherent v) {c : Crt} {k : PName} (hc : CertName k c.name) :
    Coherent (v.addCert c) := by
  have hk := crt_identity hc
  rw [← crt_keyName hc] at hk hc
  have ha := coherent_addKey hv c.pub hk
  constructor
  · exact ha.ident
  · exact ha.key
  · intro l d h
    simp only [View.addCert, View.addKey, View.addIdent, upd] at h ⊢
    split at h
    · rename_i e
      subst e
      rw [orElse_some] at h
      rcases h with h | ⟨_, rfl⟩
      · refine ⟨?_, (hv.cert _ _ h).2⟩
        split
        · rfl
        · exact (hv.cert _ _ h).1
      · simp [hc]
    · refine ⟨?_, (hv.cert _ _ h).2⟩
      split
      · rfl
      · exact (hv.cert _ _ h).1
  · exact ha.parent
  · intro d h
    simp only [View.addCert, View.addKey, View.addIdent, upd] at h ⊢
    split at h
    · rename_i e
      subst e
      exact ⟨_, hc, by simp⟩
    · obtain ⟨l, hl, hi⟩ := hv.issuer d h
      refine ⟨l, hl, ?_⟩
      split
      · rfl
      · exact hi
  · intro d x h
    simp only [View.addCert, View.addKey, View.addIdent, upd] at h
    split at h
    · rename_i e; cases h; exact e.symm
    · exact hv.named d x h

theorem coherent_removeIdent {v : View} (hv : Coherent v) (i : PName) : Coherent (v.removeIdent i) := by
  constructor
  · intro j h
    simp only [View.removeIdent, dropDefault_some, upd] at h ⊢
    rw [if_neg h.2]
    exact hv.ident _ h.1
  · intro j k h
    simp only [View.removeIdent, upd] at h ⊢
    split at h
    · cases h
    · rename_i hj
      have := hv.key _ _ h
      refine ⟨?_, this.2⟩
      rw [if_neg]
      · exact this.1
      · rw [isKeyOf_iff]; exact fun h' => hj (keyName_inj this.2 h')
  · intro k c h
    simp only [View.removeIdent] at h ⊢
    split at h
    · cases h
    · rename_i hj
      rw [isKeyOf_iff] at hj
      have := hv.cert _ _ h
      refine ⟨?_, this.2⟩
      rw [if_neg]
      · exact this.1
      · rw [isCertOfIdent_iff]
        rintro ⟨k', hk', hi⟩
        rw [certName_inj hk' this.2] at hi
        exact hj hi
  · intro k h
    simp only [View.removeIdent, upd] at h ⊢
    split at h
    · cases h
    · rename_i hj
      rw [isKeyOf_iff] at hj
      obtain ⟨j, hk, hi⟩ := hv.parent k h
      refine ⟨j, hk, ?_⟩
      rw [if_neg]
      · exact hi
      · intro e; subst e; exact hj hk
  · intro c h
    simp only [View.removeIdent] at h ⊢
    split at h
    · cases h
    · rename_i hj
      rw [isCertOfIdent_iff] at hj
      obtain ⟨k, hk, hi⟩ := hv.issuer c h
      refine ⟨k, hk, ?_⟩
      rw [if_neg]
      · exact hi
      · rw [isKeyOf_iff]; exact fun h' => hj ⟨k, hk, h'⟩
  · intro d x h
    simp only [View.removeIdent, upd] at h
    split at h
    · cases h
    · exact hv.named d x h

theorem coherent_removeKey {v : View} (hv : Coherent v) (k : PName) : Coherent (v.removeKey k) := by
  constructor
  · exact hv.ident
  · intro j l h
    simp only [View.removeKey, dropDefault_some, upd] at h ⊢
    rw [if_neg h.2]
    exact hv.key _ _ h.1
  · intro l c h
    simp only [View.removeKey, upd] at h ⊢
    split at h
    · cases h
    · rename_i hl
      have := hv.cert _ _ h
      refine ⟨?_, this.2⟩
      rw [if_neg]
      · exact this.1
      · rw [isCertOf_iff]; exact fun h' => hl (certName_inj this.2 h')
  · intro l h
    simp only [View.removeKey, upd] at h ⊢
    split at h
    · cases h
    · exact hv.parent l h
  · intro c h
    simp only [View.removeKey, upd] at h ⊢
    split at h
    · cases h
    · rename_i hj
      rw [isCertOf_iff] at hj
      obtain ⟨l, hl, hi⟩ := hv.issuer c h
      refine ⟨l, hl, ?_⟩
      rw [if_neg]
      · exact hi
      · intro e; subst e; exact hj hl
  · intro d x h
    simp only [View.removeKey, upd] at h
    split at h
    · cases h
    · exact hv.named d x h

theorem coherent_removeCert {v : View} (hv : Coherent v) (c : PName) : Coherent (v.removeCert c) := by
  constructor
  · exact hv.ident
  · exact hv.key
  · intro l d h
    simp only [View.removeCert, dropDefault_some, upd] at h ⊢
    rw [if_neg h.2]
    exact hv.cert _ _ h.1
  · exact hv.parent
  · intro d h
    simp only [View.removeCert, upd] at h ⊢
    split at h
    · cases h
    · exact hv.issuer d h
  · intro d x h
    simp only [View.removeCert, upd] at h
    split at h
    · cases h
    · exact hv.named d x h

theorem coherent_next {v : View} (hv : Coherent v) {op : Op} (hp : Proper op) : Coherent (next v op).2 := by
  cases op with
  | addIdentity i => exact coherent_addIdent hv i
  | removeIdentity i => exact coherent_removeIdent hv i
  | setDefaultIdentity i =>
    simp only [next]
    split
    · rename_i h
      exact ⟨fun j hj => by cases hj; exact h, hv.key, hv.cert, hv.parent, hv.issuer, hv.named⟩
    · exact hv
  | addKey i k bits => exact coherent_addKey hv bits hp
  | removeKey k => exact coherent_removeKey hv k
  | setDefaultKey i k =>
    simp only [next]
    split
    · rename_i h
      refine ⟨hv.ident, fun j l hj => ?_, hv.cert, hv.parent, hv.issuer, hv.named⟩
      simp only [upd] at hj
      split at hj
      · rename_i e; subst e; cases hj; exact ⟨h, hp⟩
      · exact hv.key _ _ hj
    · exact hv
  | addCertificate c => exact coherent_addCert hv hp.choose_spec
  | removeCertificate c => exact coherent_removeCert hv c
  | setDefaultCertificate k c =>
    simp only [next]
    split
    · rename_i h
      refine ⟨hv.ident, hv.key, fun j l hj => ?_, hv.parent, hv.issuer, hv.named⟩
      simp only [upd] at hj
      split at hj
      · rename_i e; subst e; cases hj; exact ⟨h, hp⟩
      · exact hv.cert _ _ hj
    · exact hv
  | clear => exact coherent_empty

theorem coherent_nexts {ops : List Op} (hp : ∀ op ∈ ops, Proper op) : ∀ {v : View}, Coherent v → Coherent (nexts ops v).2 := by
  induction ops with
  | nil => exact fun h => h
  | cons op ops ih =>
    intro v hv
    exact ih (fun o ho => hp o (List.mem_cons_of_mem _ ho)) (coherent_next hv (hp op List.mem_cons_self))

end Ndn.Pib
