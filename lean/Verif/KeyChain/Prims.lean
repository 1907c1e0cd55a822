import Verif.KeyChain.Exec
import Verif.Pib.Mem
/-
The calls on the PIB and on the TPM that the key chain makes, one by one.
-/
namespace Ndn.KeyChain
open Ndn.Name Ndn.Tlv Ndn.Block Ndn.Packet Ndn.Pib Ndn.Pib.Spec

variable {σ K α β : Type} {b : Backend σ} {R : σ → View → Prop} {A : View → PName → Prop}
  {T : View → List (PName × Option K) → Prop} {s : St σ K} {w : World}

theorem ex_wrap (F : Faithful b R A) (hs : Sim R s.pib w) (op : FOp) (hr : Real op) (hf : Fits w op)
    (hA : ∀ h k, op = .removeKey h k → A w.v k) (hT : ∀ out w', Step w op out w' → T w'.v s.tpm.keys)
    (f : Out → KM σ K α) (g : Out → Except Err α) (hg : ∀ o e, outErr o = some e → g o = .error e)
    (hfg : ∀ o (s : St σ K), outErr o = none → f o s = (g o, s))
    {Q : Except Err α → World → Tpm K → Prop} (hq : ∀ out w', Step w op out w' → Q (g out) w' s.tpm) :
    Ex R T s (Ndn.KeyChain.pib b op >>= f) Q := by
  refine ex_bind (Q1 := fun r w' t => t = s.tpm ∧ ∃ out, Step w op out w' ∧ r = asRes out)
    (ex_pib F hs op hr hf hA hT (fun out w' h => ⟨rfl, out, h, rfl⟩)) ?_ ?_
  · rintro a w1 s1 h1 ⟨ht, out, hst, he⟩
    unfold asRes at he
    split at he
    · cases he
    · rename_i hn
      injection he with he; subst he
      refine ⟨w1, ?_, ?_, ?_⟩
      · rw [hfg _ _ hn]; exact h1
      · rw [hfg _ _ hn, ht]; exact hq _ _ hst
      · rw [hfg _ _ hn]; exact .refl _
  · rintro e w1 t1 ⟨ht, out, hst, he⟩
    unfold asRes at he
    split at he
    · rename_i e' hn
      injection he with he; subst he
      rw [← hg out e hn, ht]
      exact hq _ _ hst
    · cases he

/-- A call on an identity or key that only looks something up. -/
theorem hA_of {op : FOp} (h : ∀ x k, op ≠ .removeKey x k) : ∀ x k, op = .removeKey x k → A w.v k := fun x k e => absurd e (h x k)

section
variable (F : Faithful b R A) (hs : Sim R s.pib w)
include F hs

theorem ex_addIdentity (n : PName) (hT : T (withIdent w.v n) s.tpm.keys) {Q : Except Err Nat → World → Tpm K → Prop}
    (hq : ∀ h w', w'.v = withIdent w.v n → w'.hs h = .alive (.ident n) → (∀ x r, w.hs x = .alive r → w'.hs x = .alive r) →
      Q (.ok h) w' s.tpm) : Ex R T s (pibIdent b (.addIdentity n)) Q := by
  refine ex_wrap F hs (.addIdentity n) trivial trivial (fun _ _ h => by cases h) ?_ _
    (fun o => match outErr o with | some e => .error e | none => match o with | .ident h => .ok h | _ => .error .ub) ?_ ?_ ?_
  · rintro out w' ⟨h, -, -, rfl⟩; exact hT
  · intro o e h; simp only [h]
  · intro o s h; simp only [h]; cases o <;> first | rfl | (cases h)
  · rintro out w' ⟨h, rfl, hi, rfl⟩
    exact hq h _ rfl (issue_self _ _ _) (issue_live hi)

theorem ex_getIdentity (n : PName) (hT : T w.v s.tpm.keys) {Q : Except Err Nat → World → Tpm K → Prop}
    (h1 : ∀ h w', w.v.ident n = true → Same w w' → w'.hs h = .alive (.ident n) → Q (.ok h) w' s.tpm)
    (h2 : w.v.ident n = false → Q (.error .pib) w s.tpm) : Ex R T s (pibIdent b (.getIdentity n)) Q := by
  refine ex_wrap F hs (.getIdentity n) trivial trivial (fun _ _ h => by cases h) ?_ _
    (fun o => match outErr o with | some e => .error e | none => match o with | .ident h => .ok h | _ => .error .ub) ?_ ?_ ?_
  · intro out w' h
    simp only [Step] at h
    split at h
    · obtain ⟨h, -, -, rfl⟩ := h; exact hT
    · obtain ⟨-, rfl⟩ := h; exact hT
  · intro o e h; simp only [h]
  · intro o s h; simp only [h]; cases o <;> first | rfl | (cases h)
  · intro out w' h
    simp only [Step] at h
    split at h
    · rename_i hn
      obtain ⟨h, rfl, hi, rfl⟩ := h
      exact h1 h _ hn ⟨rfl, issue_live hi⟩ (issue_self _ _ _)
    · rename_i hn
      obtain ⟨rfl, rfl⟩ := h
      exact h2 (by simpa using hn)

theorem ex_getDefaultIdentity (hT : T w.v s.tpm.keys) {Q : Except Err Nat → World → Tpm K → Prop}
    (h1 : ∀ h n w', w.v.defIdent = some n → Same w w' → w'.hs h = .alive (.ident n) → Q (.ok h) w' s.tpm)
    (h2 : w.v.defIdent = none → Q (.error .pib) w s.tpm) : Ex R T s (pibIdent b .getDefaultIdentity) Q := by
  refine ex_wrap F hs .getDefaultIdentity trivial trivial (fun _ _ h => by cases h) ?_ _
    (fun o => match outErr o with | some e => .error e | none => match o with | .ident h => .ok h | _ => .error .ub) ?_ ?_ ?_
  · intro out w' h
    simp only [Step] at h
    split at h
    · obtain ⟨h, -, -, rfl⟩ := h; exact hT
    · obtain ⟨-, rfl⟩ := h; exact hT
  · intro o e h; simp only [h]
  · intro o s h; simp only [h]; cases o <;> first | rfl | (cases h)
  · intro out w' h
    simp only [Step] at h
    split at h
    · rename_i n hn
      obtain ⟨h, rfl, hi, rfl⟩ := h
      exact h1 h n _ hn ⟨rfl, issue_live hi⟩ (issue_self _ _ _)
    · rename_i hn
      obtain ⟨rfl, rfl⟩ := h
      exact h2 hn

theorem ex_getDefaultKey {h : Nat} {i : PName} (hh : w.hs h = .alive (.ident i)) (hT : T w.v s.tpm.keys)
    {Q : Except Err Nat → World → Tpm K → Prop}
    (h1 : ∀ x k w', w.v.defKey i = some k → Same w w' → w'.hs x = .alive (.key k) → Q (.ok x) w' s.tpm)
    (h2 : w.v.defKey i = none → Q (.error .pib) w s.tpm) : Ex R T s (pibKey b (.getDefaultKey h)) Q := by
  refine ex_wrap F hs (.getDefaultKey h) trivial trivial (fun _ _ h => by cases h) ?_ _
    (fun o => match outErr o with | some e => .error e | none => match o with | .key h => .ok h | _ => .error .ub) ?_ ?_ ?_
  · intro out w' h
    simp only [Step, onIdent, hh] at h
    split at h
    · obtain ⟨h, -, -, rfl⟩ := h; exact hT
    · obtain ⟨-, rfl⟩ := h; exact hT
  · intro o e h; simp only [h]
  · intro o s h; simp only [h]; cases o <;> first | rfl | (cases h)
  · intro out w' h
    simp only [Step, onIdent, hh] at h
    split at h
    · rename_i n hn
      obtain ⟨h, rfl, hi, rfl⟩ := h
      exact h1 h n _ hn ⟨rfl, issue_live hi⟩ (issue_self _ _ _)
    · rename_i hn
      obtain ⟨rfl, rfl⟩ := h
      exact h2 hn

theorem ex_getKey {h : Nat} {i k : PName} (hh : w.hs h = .alive (.ident i)) (hk : KeyName i k) (hT : T w.v s.tpm.keys)
    {Q : Except Err Nat → World → Tpm K → Prop}
    (h1 : ∀ x w', (w.v.key k).isSome → Same w w' → w'.hs x = .alive (.key k) → Q (.ok x) w' s.tpm)
    (h2 : w.v.key k = none → Q (.error .pib) w s.tpm) : Ex R T s (pibKey b (.getKey h k)) Q := by
  refine ex_wrap F hs (.getKey h k) trivial trivial (fun _ _ h => by cases h) ?_ _
    (fun o => match outErr o with | some e => .error e | none => match o with | .key h => .ok h | _ => .error .ub) ?_ ?_ ?_
  · intro out w' h
    simp only [Step, onIdent, hh, if_pos hk] at h
    split at h
    · obtain ⟨h, -, -, rfl⟩ := h; exact hT
    · obtain ⟨-, rfl⟩ := h; exact hT
  · intro o e h; simp only [h]
  · intro o s h; simp only [h]; cases o <;> first | rfl | (cases h)
  · intro out w' h
    simp only [Step, onIdent, hh, if_pos hk] at h
    split at h
    · rename_i hn
      obtain ⟨h, rfl, hi, rfl⟩ := h
      exact h1 h _ hn ⟨rfl, issue_live hi⟩ (issue_self _ _ _)
    · rename_i hn
      obtain ⟨rfl, rfl⟩ := h
      exact h2 (by simpa using hn)

theorem ex_addKey {h : Nat} {i k : PName} (bits : Bytes) (hh : w.hs h = .alive (.ident i)) (hk : KeyName i k)
    (hT : T (w.v.addKey i k bits) s.tpm.keys) {Q : Except Err Nat → World → Tpm K → Prop}
    (hq : ∀ x w', w'.v = w.v.addKey i k bits → w'.hs x = .alive (.key k) →
      (∀ x r, w.hs x = .alive r → r ≠ .key k → w'.hs x = .alive r) → Q (.ok x) w' s.tpm) :
    Ex R T s (pibKey b (.addKey h bits k)) Q := by
  refine ex_wrap F hs (.addKey h bits k) trivial trivial (fun _ _ h => by cases h) ?_ _
    (fun o => match outErr o with | some e => .error e | none => match o with | .key h => .ok h | _ => .error .ub) ?_ ?_ ?_
  · intro out w' h
    simp only [Step, onIdent, hh, if_pos hk] at h
    obtain ⟨h, -, -, rfl⟩ := h; exact hT
  · intro o e h; simp only [h]
  · intro o s h; simp only [h]; cases o <;> first | rfl | (cases h)
  · intro out w' h
    simp only [Step, onIdent, hh, if_pos hk] at h
    obtain ⟨h, rfl, hi, rfl⟩ := h
    refine hq h _ rfl (issue_self _ _ _) (fun x r e hne => issue_live hi x r ?_)
    simp only [kill, e, theKey, decide_eq_true_eq, if_neg hne]

theorem ex_identName {h : Nat} {i : PName} (hh : w.hs h = .alive (.ident i)) (hT : T w.v s.tpm.keys)
    {Q : Except Err (List PName) → World → Tpm K → Prop} (hq : Q (.ok [i]) w s.tpm) : Ex R T s (pibNames b (.identName h)) Q := by
  refine ex_wrap F hs (.identName h) trivial trivial (fun _ _ h => by cases h) ?_ _
    (fun o => match outErr o with | some e => .error e | none => match o with | .names h => .ok h | _ => .error .ub) ?_ ?_ ?_
  · intro out w' h
    simp only [Step, onIdent, hh] at h
    obtain ⟨-, rfl⟩ := h; exact hT
  · intro o e h; simp only [h]
  · intro o s h; simp only [h]; cases o <;> first | rfl | (cases h)
  · intro out w' h
    simp only [Step, onIdent, hh] at h
    obtain ⟨rfl, rfl⟩ := h
    exact hq

theorem ex_keyName {h : Nat} {k : PName} (hh : w.hs h = .alive (.key k)) (hT : T w.v s.tpm.keys)
    {Q : Except Err (List PName) → World → Tpm K → Prop} (hq : Q (.ok [k]) w s.tpm) : Ex R T s (pibNames b (.keyName h)) Q := by
  refine ex_wrap F hs (.keyName h) trivial trivial (fun _ _ h => by cases h) ?_ _
    (fun o => match outErr o with | some e => .error e | none => match o with | .names h => .ok h | _ => .error .ub) ?_ ?_ ?_
  · intro out w' h
    simp only [Step, onKey, hh] at h
    obtain ⟨-, rfl⟩ := h; exact hT
  · intro o e h; simp only [h]
  · intro o s h; simp only [h]; cases o <;> first | rfl | (cases h)
  · intro out w' h
    simp only [Step, onKey, hh] at h
    obtain ⟨rfl, rfl⟩ := h
    exact hq

theorem ex_keys {h : Nat} {i : PName} (hh : w.hs h = .alive (.ident i)) (hT : T w.v s.tpm.keys)
    {Q : Except Err (List PName) → World → Tpm K → Prop}
    (hq : ∀ l, (∀ k, k ∈ l ↔ KeyName i k ∧ (w.v.key k).isSome) → Q (.ok l) w s.tpm) : Ex R T s (pibNames b (.keys h)) Q := by
  refine ex_wrap F hs (.keys h) trivial trivial (fun _ _ h => by cases h) ?_ _
    (fun o => match outErr o with | some e => .error e | none => match o with | .names h => .ok h | _ => .error .ub) ?_ ?_ ?_
  · intro out w' h
    simp only [Step, onIdent, hh] at h
    obtain ⟨-, rfl⟩ := h; exact hT
  · intro o e h; simp only [h]
  · intro o s h; simp only [h]; cases o <;> first | rfl | (cases h)
  · intro out w' h
    simp only [Step, onIdent, hh] at h
    obtain ⟨⟨l, rfl, hl⟩, rfl⟩ := h
    exact hq l hl

theorem ex_keyBits {h : Nat} {k : PName} (hh : w.hs h = .alive (.key k)) (hT : T w.v s.tpm.keys)
    {Q : Except Err Bytes → World → Tpm K → Prop}
    (hq : ∀ bits, w.v.key k = some bits → Q (.ok bits) w s.tpm) : Ex R T s (pibBits b (.keyBits h)) Q := by
  refine ex_wrap F hs (.keyBits h) trivial trivial (fun _ _ h => by cases h) ?_ _
    (fun o => match outErr o with | some e => .error e | none => match o with | .bits h => .ok h | _ => .error .ub) ?_ ?_ ?_
  · intro out w' h
    simp only [Step, onKey, hh] at h
    obtain ⟨-, rfl⟩ := h; exact hT
  · intro o e h; simp only [h]
  · intro o s h; simp only [h]; cases o <;> first | rfl | (cases h)
  · intro out w' h
    simp only [Step, onKey, hh] at h
    obtain ⟨⟨l, hl, rfl⟩, rfl⟩ := h
    exact hq l hl

theorem ex_getDefaultCert {h : Nat} {k : PName} (hh : w.hs h = .alive (.key k)) (hT : T w.v s.tpm.keys)
    {Q : Except Err Crt → World → Tpm K → Prop}
    (h1 : ∀ c, w.v.defCert k = some c.name → w.v.cert c.name = some c → Q (.ok c) w s.tpm)
    (h2 : w.v.defCert k = none → Q (.error .pib) w s.tpm) : Ex R T s (pibCert b (.getDefaultCert h)) Q := by
  have co := (F.rep hs.rep).coh
  refine ex_wrap F hs (.getDefaultCert h) trivial trivial (fun _ _ h => by cases h) ?_ _
    (fun o => match outErr o with | some e => .error e | none => match o with | .cert h => .ok h | _ => .error .ub) ?_ ?_ ?_
  · intro out w' h
    simp only [Step, onKey, hh] at h
    split at h <;> (obtain ⟨-, rfl⟩ := h; exact hT)
  · intro o e h; simp only [h]
  · intro o s h; simp only [h]; cases o <;> first | rfl | (cases h)
  · intro out w' h
    simp only [Step, onKey, hh] at h
    split at h
    · rename_i x hx
      obtain ⟨rfl, rfl⟩ := h
      obtain ⟨c, hc1, hc2⟩ := Option.bind_eq_some_iff.mp hx
      have hn := co.named _ _ hc2
      exact h1 x (by rw [hn]; exact hc1) (by rw [hn]; exact hc2)
    · rename_i hn
      obtain ⟨rfl, rfl⟩ := h
      refine h2 ?_
      cases hd : w'.v.defCert k with
      | none => rfl
      | some c =>
        rw [hd, Option.bind_some] at hn
        have := (co.cert _ _ hd).1
        rw [hn] at this
        cases this

theorem ex_done (op : FOp) (hr : Real op) (hf : Fits w op) (hA : ∀ h k, op = .removeKey h k → A w.v k)
    (hT : ∀ out w', Step w op out w' → T w'.v s.tpm.keys) {Q : Except Err Unit → World → Tpm K → Prop}
    (hq : ∀ out w', Step w op out w' → Q (match outErr out with | some e => .error e | none => .ok ()) w' s.tpm) :
    Ex R T s (pibDone b op) Q := by
  refine ex_wrap F hs op hr hf hA hT _ (fun o => match outErr o with | some e => .error e | none => .ok ()) ?_ ?_ hq
  · intro o e h; simp only [h]
  · intro o s h; simp only [h]; rfl

end

/-! ## The TPM -/

theorem at_tpmHas (n : PName) : (tpmHas n : KM σ K Bool) s = (.ok (Pib.get n s.tpm.keys).isSome, s) := rfl

theorem ex_tpmPut (hs : Sim R s.pib w) (n : PName) (k : Option K) (hT : T w.v (put n k s.tpm.keys))
    {Q : Except Err Unit → World → Tpm K → Prop} (hq : Q (.ok ()) w { s.tpm with keys := put n k s.tpm.keys }) :
    Ex R T s (tpmPut n k) Q := by
  refine ⟨w, hs, hq, ?_⟩
  intro e he
  rcases List.mem_cons.mp he with rfl | he
  · exact Or.inr ⟨w.v, hs.rep, hT⟩
  · exact Or.inl he

theorem ex_tpmKeep (hs : Sim R s.pib w) (n : PName) (k : K)
    {Q : Except Err Unit → World → Tpm K → Prop} (hq : Q (.ok ()) w { s.tpm with cache := put n k s.tpm.cache }) :
    Ex R T s (tpmKeep n k) Q := ⟨w, hs, hq, fun _ h => Or.inl h⟩

theorem ex_tpmDelete (hs : Sim R s.pib w) (n : PName) (hT : T w.v (del n s.tpm.keys))
    {Q : Except Err Unit → World → Tpm K → Prop} (hq : Q (.ok ()) w ⟨del n s.tpm.keys, del n s.tpm.cache⟩) :
    Ex R T s (tpmDelete n) Q := by
  refine ⟨w, hs, hq, ?_⟩
  intro e he
  rcases List.mem_cons.mp he with rfl | he
  · exact Or.inr ⟨w.v, hs.rep, hT⟩
  · exact Or.inl he

/-- The handles kept are for the keys stored. -/
def CacheOk (t : Tpm K) : Prop := ∀ n k, Pib.get n t.cache = some k → Pib.get n t.keys = some (some k)

/-- The TPM stores the same, and keeps handles for what it stores. -/
structure Kept (t t' : Tpm K) : Prop where
  keys : t'.keys = t.keys
  cache : CacheOk t'

theorem Kept.refl {t : Tpm K} (h : CacheOk t) : Kept t t := ⟨rfl, h⟩
theorem Kept.trans {t1 t2 t3 : Tpm K} (h : Kept t1 t2) (h' : Kept t2 t3) : Kept t1 t3 := ⟨h'.keys.trans h.keys, h'.cache⟩

theorem ex_tpmFind (hs : Sim R s.pib w) (n : PName) (hc : CacheOk s.tpm) {Q : Except Err (Option K) → World → Tpm K → Prop}
    (h1 : ∀ k t', Pib.get n s.tpm.keys = some (some k) → Kept s.tpm t' → Q (.ok (some k)) w t')
    (h2 : Pib.get n s.tpm.keys = none → Q (.ok none) w s.tpm) (h3 : Pib.get n s.tpm.keys = some none → Q (.error .ub) w s.tpm) :
    Ex R T s (tpmFind n) Q := by
  unfold Ex tpmFind
  cases e : Pib.get n s.tpm.cache with
  | some k => exact ⟨w, hs, h1 k _ (hc n k e) (.refl hc), .refl _⟩
  | none =>
    dsimp only
    cases e2 : Pib.get n s.tpm.keys with
    | none => exact ⟨w, hs, h2 e2, .refl _⟩
    | some o => cases o with
      | none => exact ⟨w, hs, h3 e2, .refl _⟩
      | some k =>
        refine ⟨w, hs, h1 k _ e2 ⟨rfl, ?_⟩, fun _ h => Or.inl h⟩
        intro x y hx
        dsimp only at hx ⊢
        rw [get_put] at hx
        split at hx
        · rename_i hxn; injection hx with hx; subst hx; rw [hxn]; exact e2
        · exact hc x y hx

theorem ex_tpmSign (C : Crypto K) (m : Bytes) (hs : Sim R s.pib w) (n : PName) (a : Alg) (hc : CacheOk s.tpm)
    {Q : Except Err (Option Bytes) → World → Tpm K → Prop}
    (h1 : ∀ k sig t', Pib.get n s.tpm.keys = some (some k) → C.sign k a m = some sig → Kept s.tpm t' → Q (.ok (some sig)) w t')
    (h2 : Pib.get n s.tpm.keys = none → Q (.ok none) w s.tpm) (h3 : Pib.get n s.tpm.keys = some none → Q (.error .ub) w s.tpm)
    (h4 : ∀ k t', Pib.get n s.tpm.keys = some (some k) → C.sign k a m = none → Kept s.tpm t' → Q (.error .crypto) w t') :
    Ex R T s (tpmSign C m n a) Q := by
  refine ex_bind (Q1 := fun r w' t' => w' = w ∧ ((∃ k, r = .ok (some k) ∧ Pib.get n s.tpm.keys = some (some k) ∧ Kept s.tpm t') ∨
      (r = .ok none ∧ Pib.get n s.tpm.keys = none ∧ t' = s.tpm) ∨ (r = .error .ub ∧ Pib.get n s.tpm.keys = some none ∧ t' = s.tpm)))
    (ex_tpmFind hs n hc (fun k t' h h' => ⟨rfl, .inl ⟨k, rfl, h, h'⟩⟩) (fun h => ⟨rfl, .inr (.inl ⟨rfl, h, rfl⟩)⟩)
      (fun h => ⟨rfl, .inr (.inr ⟨rfl, h, rfl⟩)⟩)) ?_ ?_
  · rintro a w1 s1 hs1 ⟨rfl, ⟨k, e, hk, ht⟩ | ⟨e, hk, ht⟩ | ⟨e, hk, ht⟩⟩
    · injection e with e; subst e
      dsimp only
      cases hsg : C.sign k _ m with
      | none => exact ex_raise hs1 _ (h4 k _ hk hsg ht)
      | some sig => exact ex_pure hs1 _ (h1 k sig _ hk hsg ht)
    · injection e with e; subst e
      exact ex_pure hs1 _ (by rw [ht]; exact h2 hk)
    · cases e
  · rintro e w1 t1 ⟨rfl, ⟨k, e', hk, ht⟩ | ⟨e', hk, ht⟩ | ⟨e', hk, ht⟩⟩
    · cases e'
    · cases e'
    · injection e' with e'; subst e'; rw [ht]; exact h3 hk

end Ndn.KeyChain
