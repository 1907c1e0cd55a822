import Verif.KeyChain.SignData
/-
The functions that manage identities, keys and certificates.
-/
namespace Ndn.KeyChain
open Ndn.Name Ndn.Tlv Ndn.Block Ndn.Packet Ndn.Pib Ndn.Pib.Spec Ndn.KeyChain.Spec

variable {σ K α β : Type} {b : Backend σ} {R : σ → View → Prop} {A : View → PName → Prop}
  {T : View → List (PName × Option K) → Prop} {s : St σ K} {w : World} {C : Crypto K}

theorem ex_drawName (hs : Sim R s.pib w) (i : PName) {Q : Except Err PName → World → Tpm K → Prop}
    (l : List Nat) (h1 : ∀ n ∈ l, get (keyNameOf i ⟨8, writeNonNegativeInteger n⟩) s.tpm.keys = none →
      Q (.ok (keyNameOf i ⟨8, writeNonNegativeInteger n⟩)) w s.tpm)
    (h2 : (∀ n ∈ l, (get (keyNameOf i ⟨8, writeNonNegativeInteger n⟩) s.tpm.keys).isSome) → Q (.error .drawing) w s.tpm) :
    Ex R T s (drawName i l) Q := by
  induction l with
  | nil => exact ex_raise hs _ (h2 (by simp))
  | cons n ns ih =>
    simp only [drawName]
    refine ex_bindAt (at_tpmHas (s := s) _) ?_
    cases hg : get (keyNameOf i ⟨8, writeNonNegativeInteger n⟩) s.tpm.keys with
    | none => exact ex_pure hs _ (h1 n (List.mem_cons_self ..) hg)
    | some x =>
      refine ih (fun m hm => h1 m (List.mem_cons_of_mem _ hm)) (fun h => h2 ?_)
      intro m hm
      rcases List.mem_cons.mp hm with rfl | hm
      · rw [hg]; rfl
      · exact h m hm

/-- The new key in the TPM. -/
def stored (n : PName) (gen : K) (t : Tpm K) : Tpm K := ⟨put n (some gen) t.keys, put n gen t.cache⟩

theorem Inv.stored {t : Tpm K} (inv : Inv C w t) {n : PName} (gen : K) (hn : get n t.keys = none) : Inv C w (stored n gen t) :=
  ⟨inv.cache.put2 gen, inv.held.put _ hn, inv.certs⟩

/-- There is no name for the key. -/
def NoName (C : Crypto K) (i : PName) (id : KeyId) (gen : K) (rnd : List Nat) (t : Tpm K) (e : Err) : Prop :=
  e ≠ .pib ∧ C.isHmac gen = false ∧ ¬ ((C.pub gen).isSome ∧ NameFree i id rnd t.priv)

theorem ex_tpmCreateKey (hs : Sim R s.pib w) (i : PName) (id : KeyId) (gen : K) (rnd : List Nat)
    (fr : Fresh C i id gen s.tpm.priv) (hT : ∀ n, get n s.tpm.keys = none → T w.v (put n (some gen) s.tpm.keys))
    {Q : Except Err PName → World → Tpm K → Prop}
    (h1 : C.isHmac gen = true → get (i ++ [⟨8, C.keyDigest gen⟩]) s.tpm.keys = none →
      Q (.ok (i ++ [⟨8, C.keyDigest gen⟩])) w (stored (i ++ [⟨8, C.keyDigest gen⟩]) gen s.tpm))
    (h2 : ∀ k, C.isHmac gen = false → NameFor C i id gen rnd k → get k s.tpm.keys = none → Q (.ok k) w (stored k gen s.tpm))
    (h3 : ∀ e, e ≠ .pib → C.isHmac gen = false → ¬ ((C.pub gen).isSome ∧ NameFree i id rnd s.tpm.priv) → Q (.error e) w s.tpm) : Ex R T s (tpmCreateKey C i id gen rnd) Q := by
  unfold tpmCreateKey
  refine ex_bind (Q1 := fun r w' t => w' = w ∧ ((∃ e, r = .error e ∧ NoName C i id gen rnd s.tpm e ∧ t = s.tpm) ∨
      ∃ n, r = .ok n ∧ t = { s.tpm with keys := put n (some gen) s.tpm.keys } ∧ get n s.tpm.keys = none ∧
        ((C.isHmac gen = true ∧ n = i ++ [⟨8, C.keyDigest gen⟩]) ∨ (C.isHmac gen = false ∧ NameFor C i id gen rnd n)))) ?_ ?_ ?_
  · have main : Ex R T s (doCreateKey C i id gen rnd) (fun r w' t => w' = w ∧ ((∃ e, r = .error e ∧ NoName C i id gen rnd s.tpm e ∧ t = s.tpm) ∨
        ∃ n, r = .ok n ∧ t = { s.tpm with keys := put n (some gen) s.tpm.keys } ∧
          (get n s.tpm.keys = none ∨ ∃ c, id = .user c ∧ n = keyNameOf i c ∧ C.isHmac gen = false) ∧
          ((C.isHmac gen = true ∧ n = i ++ [⟨8, C.keyDigest gen⟩]) ∨ (C.isHmac gen = false ∧ NameFor C i id gen rnd n)))) ∨
        (∃ c, id = .user c ∧ C.isHmac gen = false ∧ (get (keyNameOf i c) s.tpm.keys).isSome) := by
      unfold doCreateKey constructName
      cases hh : C.isHmac gen with
      | true =>
        left
        refine ex_bind (Q1 := fun r w' t => w' = w ∧ t = s.tpm ∧ r = .ok (i ++ [⟨8, C.keyDigest gen⟩])) ?_ ?_ ?_
        · simp only [if_true]
          exact ex_pure hs _ ⟨rfl, rfl, rfl⟩
        · rintro a w1 s1 hs1 ⟨rfl, ht, e⟩
          injection e with e; subst e
          have hg := fr.1 hh
          refine ex_bind (Q1 := fun r w' t => w' = w1 ∧ r = .ok () ∧ t = { s.tpm with keys := put (i ++ [⟨8, C.keyDigest gen⟩]) (some gen) s.tpm.keys })
            (ex_tpmPut hs1 _ _ (by rw [ht]; exact hT _ hg) ⟨rfl, rfl, by rw [ht]⟩) ?_ ?_
          · rintro _ w2 s2 hs2 ⟨rfl, -, ht2⟩
            exact ex_pure hs2 _ ⟨rfl, .inr ⟨_, rfl, ht2, .inl hg, .inl ⟨rfl, rfl⟩⟩⟩
          · rintro e w1 t1 ⟨-, e', -⟩; cases e'
        · rintro e w1 t1 ⟨-, -, e'⟩; cases e'
      | false =>
        by_cases hu : ∃ c, id = .user c ∧ (get (keyNameOf i c) s.tpm.keys).isSome
        · obtain ⟨c, h1, h2⟩ := hu
          exact .inr ⟨c, h1, rfl, h2⟩
        · left
          refine ex_bind (Q1 := fun r w' t => w' = w ∧ t = s.tpm ∧ ((∃ n, r = .ok n ∧ NameFor C i id gen rnd n ∧ get n s.tpm.keys = none) ∨ ∃ e, r = .error e ∧ NoName C i id gen rnd s.tpm e)) ?_ ?_ ?_
          · simp only [Bool.false_eq_true, if_false]
            cases id with
            | user c =>
              refine ex_pure hs _ ⟨rfl, rfl, .inl ⟨_, rfl, ⟨c, rfl, rfl⟩, ?_⟩⟩
              cases hg : get (keyNameOf i c) s.tpm.keys with
              | none => rfl
              | some x => exact absurd ⟨c, rfl, by rw [hg]; rfl⟩ hu
            | sha256 =>
              dsimp only
              cases hp : C.pub gen with
              | none => exact ex_raise hs _ ⟨rfl, rfl, .inr ⟨_, rfl, by decide, hh, fun h => by rw [hp] at h; cases h.1⟩⟩
              | some p => exact ex_pure hs _ ⟨rfl, rfl, .inl ⟨_, rfl, ⟨_, rfl, p, hp, rfl⟩, fr.2 hh rfl p hp⟩⟩
            | random =>
              exact ex_drawName hs i rnd (fun n hm hn => ⟨rfl, rfl, .inl ⟨_, rfl, ⟨_, rfl, n, hm, rfl⟩, hn⟩⟩)
                (fun h => ⟨rfl, rfl, .inr ⟨_, rfl, by decide, hh, fun ⟨_, n, hn, hf⟩ => by
                  have := h n hn
                  rw [show get (keyNameOf i ⟨8, writeNonNegativeInteger n⟩) s.tpm.keys = none from hf] at this; cases this⟩⟩)
          · rintro a w1 s1 hs1 ⟨rfl, ht, ⟨n, e, hn, hg⟩ | ⟨e, e', -⟩⟩
            · injection e with e; subst e
              refine ex_bind (Q1 := fun r w' t => w' = w1 ∧ r = .ok () ∧ t = { s.tpm with keys := put a (some gen) s.tpm.keys })
                (ex_tpmPut hs1 _ _ (by rw [ht]; exact hT _ hg) ⟨rfl, rfl, by rw [ht]⟩) ?_ ?_
              · rintro _ w2 s2 hs2 ⟨rfl, -, ht2⟩
                exact ex_pure hs2 _ ⟨rfl, .inr ⟨_, rfl, ht2, .inl hg, .inr ⟨rfl, hn⟩⟩⟩
              · rintro e w1 t1 ⟨-, e', -⟩; cases e'
            · cases e'
          · rintro e w1 t1 ⟨rfl, ht, ⟨n, e', -⟩ | ⟨e2, e', hp⟩⟩
            · cases e'
            · injection e' with e'; subst e'; exact ⟨rfl, .inl ⟨e, rfl, hp, ht⟩⟩
    unfold backCreateKey
    cases hh : C.isHmac gen with
    | true =>
      rw [if_pos rfl]
      rcases main with main | ⟨c, -, e, -⟩
      · refine main.mono ?_
        rintro r w' t ⟨rfl, h | ⟨n, e1, e2, e3, e4⟩⟩
        · exact ⟨rfl, .inl h⟩
        · refine ⟨rfl, .inr ⟨n, e1, e2, ?_, ?_⟩⟩
          · rcases e3 with e3 | ⟨_, -, -, e3⟩
            · exact e3
            · rw [hh] at e3; cases e3
          · rcases e4 with e4 | e4
            · exact .inl ⟨rfl, e4.2⟩
            · rw [hh] at e4; cases e4.1
      · rw [hh] at e; cases e
    | false =>
      have fin : Ex R T s (doCreateKey C i id gen rnd) (fun r w' t => w' = w ∧ ((∃ e, r = .error e ∧ NoName C i id gen rnd s.tpm e ∧ t = s.tpm) ∨
        ∃ n, r = .ok n ∧ t = { s.tpm with keys := put n (some gen) s.tpm.keys } ∧
          (get n s.tpm.keys = none ∨ ∃ c, id = .user c ∧ n = keyNameOf i c ∧ C.isHmac gen = false) ∧
          ((C.isHmac gen = true ∧ n = i ++ [⟨8, C.keyDigest gen⟩]) ∨ (C.isHmac gen = false ∧ NameFor C i id gen rnd n)))) →
        (∀ c, id = .user c → get (keyNameOf i c) s.tpm.keys = none) →
        Ex R T s (doCreateKey C i id gen rnd) (fun r w' t => w' = w ∧ ((∃ e, r = .error e ∧ NoName C i id gen rnd s.tpm e ∧ t = s.tpm) ∨
          ∃ n, r = .ok n ∧ t = { s.tpm with keys := put n (some gen) s.tpm.keys } ∧ get n s.tpm.keys = none ∧
            ((false = true ∧ n = i ++ [⟨8, C.keyDigest gen⟩]) ∨ (false = false ∧ NameFor C i id gen rnd n)))) := by
        intro main hu
        refine main.mono ?_
        rintro r w' t ⟨rfl, h | ⟨n, e1, e2, e3, e4⟩⟩
        · exact ⟨rfl, .inl h⟩
        · refine ⟨rfl, .inr ⟨n, e1, e2, ?_, ?_⟩⟩
          · rcases e3 with e3 | ⟨c, e3, e5, -⟩
            · exact e3
            · rw [e5]; exact hu c e3
          · rcases e4 with e4 | e4
            · rw [hh] at e4; cases e4.1
            · exact .inr ⟨rfl, e4.2⟩
      simp only [Bool.false_eq_true, if_false]
      cases id with
      | user c =>
        dsimp only
        refine ex_bindAt (at_tpmHas (s := s) _) ?_
        cases hg : get (keyNameOf i c) s.tpm.keys with
        | some x =>
          simp only [Option.isSome_some, if_true]
          exact ex_raise hs _ ⟨rfl, .inl ⟨_, rfl, ⟨by decide, hh, fun h => by
            have h := h.2
            simp only [NameFree] at h
            rw [show s.tpm.priv (i ++ [keyComp, c]) = some x from hg] at h; cases h⟩, rfl⟩⟩
        | none =>
          simp only [Option.isSome_none, Bool.false_eq_true, if_false]
          rcases main with main | ⟨c', e, -, h⟩
          · simpa using fin main (fun c' e => by injection e with e; subst e; exact hg)
          · injection e with e; subst e; rw [hg] at h; cases h
      | sha256 =>
        rcases main with main | ⟨c', e, -⟩
        · simpa using fin main (fun c' e => by cases e)
        · cases e
      | random =>
        rcases main with main | ⟨c', e, -⟩
        · simpa using fin main (fun c' e => by cases e)
        · cases e
  · rintro a w1 s1 hs1 ⟨rfl, ⟨e, e', -⟩ | ⟨n, e, ht, hg, hc⟩⟩
    · cases e'
    · injection e with e; subst e
      refine ex_bind (Q1 := fun r w' t => w' = w1 ∧ r = .ok () ∧ t = stored a gen s.tpm) (ex_tpmKeep hs1 _ _ ⟨rfl, rfl, by rw [ht]; rfl⟩) ?_ ?_
      · rintro _ w2 s2 hs2 ⟨rfl, -, ht2⟩
        refine ex_pure hs2 _ ?_
        rw [ht2]
        rcases hc with ⟨c1, rfl⟩ | ⟨c1, c2⟩
        · exact h1 c1 hg
        · exact h2 _ c1 c2 hg
      · rintro e w1 t1 ⟨-, e', -⟩; cases e'
  · rintro e w1 t1 ⟨rfl, ⟨e2, e', hp, ht⟩ | ⟨n, e', -⟩⟩
    · injection e' with e'; subst e'; rw [ht]; exact h3 e hp.1 hp.2.1 hp.2.2
    · cases e'

theorem ex_tpmPublicKey (hs : Sim R s.pib w) (hc : CacheOk s.tpm) (n : PName) (k : K) (hk : get n s.tpm.keys = some (some k))
    {Q : Except Err (Option Bytes) → World → Tpm K → Prop}
    (h1 : ∀ p t', C.pub k = some p → Kept s.tpm t' → Q (.ok (some p)) w t')
    (h2 : ∀ t', C.pub k = none → Kept s.tpm t' → Q (.error .crypto) w t') : Ex R T s (tpmPublicKey C n) Q := by
  unfold tpmPublicKey
  refine ex_bind (Q1 := fun r w' t => w' = w ∧ Kept s.tpm t ∧ r = .ok (some k))
    (ex_tpmFind hs n hc (fun k' t' h' ht => by rw [hk] at h'; injection h' with h'; injection h' with h'; subst h'; exact ⟨rfl, ht, rfl⟩)
      (fun h' => by rw [hk] at h'; cases h') (fun h' => by rw [hk] at h'; cases h')) ?_ ?_
  · rintro a w1 s1 hs1 ⟨rfl, ht, e⟩
    injection e with e; subst e
    dsimp only
    cases hp : C.pub k with
    | none => exact ex_raise hs1 _ (h2 _ hp ht)
    | some p => exact ex_pure hs1 _ (h1 p _ hp ht)
  · rintro e w1 t1 ⟨-, -, e'⟩; cases e'

/-- What creating a key gives. -/
def KeyMade (C : Crypto K) (w : World) (i : PName) (id : KeyId) (e : Env K) (t : Tpm K) (kh : Nat) (w' : World) (t' : Tpm K) : Prop :=
  ∃ k p c, NameFor C i id e.gen e.rnd k ∧ w.v.key k = none ∧ get k t.keys = none ∧ C.pub e.gen = some p ∧ CertName k c.name ∧ c.pub = p ∧
    w'.hs kh = .alive (.key k) ∧ w'.v = (w.v.addKey i k p).addCert c ∧ t'.keys = put k (some e.gen) t.keys ∧ Live w w' ∧ SelfSigned C k e c

theorem alive_key (hs : Sim R s.pib w) {x : Nat} {k : PName} (h : w.hs x = .alive (.key k)) : (w.v.key k).isSome := by
  obtain ⟨o, ho, -, rfl⟩ := hs.keyAll x k h
  rw [(hs.keyOk o ho).bits]; rfl

theorem alive_ident (hs : Sim R s.pib w) {x : Nat} {i : PName} (h : w.hs x = .alive (.ident i)) : w.v.ident i = true := by
  obtain ⟨o, ho, -, rfl⟩ := hs.idAll x i h
  exact (hs.idOk o ho).1

theorem keysGrow_put {t : Tpm K} {n : PName} (k : Option K) (hn : get n t.keys = none) : KeysGrow t.keys (put n k t.keys) := by
  intro m x h
  rw [get_put]
  split
  · rename_i e; rw [e, hn] at h; cases h
  · exact h

theorem nameFor_key {i k : PName} {id : KeyId} {gen : K} {rnd : List Nat} (h : NameFor C i id gen rnd k) : KeyName i k := by
  obtain ⟨c, rfl, -⟩ := h; exact ⟨c, rfl⟩

theorem grows_noKey {v : View} (co : Coherent v) {i k : PName} {bits : Bytes} (hk : v.key k = none) (hd : (v.addKey i k bits).defCert k = none) : Grows v (v.addKey i k bits) :=
  .addKey _ _ _ _ (.inl hk)

theorem ex_createKey (F : Faithful b R A) (W : Works C) (hs : Sim R s.pib w) (inv : Inv C w s.tpm) (e : Env K) {h : Nat} {i : PName} (id : KeyId)
    (hh : w.hs h = .alive (.ident i)) (fr : Fresh C i id e.gen s.tpm.priv) {Q : Except Err Nat → World → Tpm K → Prop}
    (h1 : ∀ kh w' t', KeyMade C w i id e s.tpm kh w' t' → Inv C w' t' → Q (.ok kh) w' t')
    (h2 : ∀ er w' t', er ≠ .pib → ¬ Possible C i id e s.tpm.priv → Grows w.v w'.v → Live w w' → KeysGrow s.tpm.keys t'.keys → Inv C w' t' → Q (.error er) w' t') :
    Ex R (TT C) s (createKey C b e h id) Q := by
  unfold createKey
  refine ex_bindAt (at_identValid hs h) ?_
  rw [identOf_iff.mpr hh]
  simp only [Option.isSome_some, if_true]
  refine exb_identName F hs inv.t hh (fun s1 hs1 ht1 => ?_)
  have inv1 : Inv C w s1.tpm := by rw [ht1]; exact inv
  dsimp only [List.headD_cons]
  refine ex_bind (Q1 := fun r w' t => w' = w ∧ ((∃ er, r = .error er ∧ (er ≠ .pib ∧ ¬ Possible C i id e s.tpm.priv) ∧ t = s.tpm) ∨ ∃ n, r = .ok n ∧ t = stored n e.gen s.tpm ∧
      get n s.tpm.keys = none ∧ (C.isHmac e.gen = true ∧ n = i ++ [⟨8, C.keyDigest e.gen⟩] ∨ NameFor C i id e.gen e.rnd n))) ?_ ?_ ?_
  · refine ex_tpmCreateKey hs1 i id e.gen e.rnd (by rw [ht1]; exact fr) (fun n hn => ⟨inv1.held.put _ hn, inv1.certs⟩) ?_ ?_ ?_
    · intro a1 a2; rw [ht1] at a2 ⊢; exact ⟨rfl, .inr ⟨_, rfl, rfl, a2, .inl ⟨a1, rfl⟩⟩⟩
    · intro k a1 a2 a3; rw [ht1] at a3 ⊢; exact ⟨rfl, .inr ⟨_, rfl, rfl, a3, .inr a2⟩⟩
    · intro er hp _ hn; exact ⟨rfl, .inl ⟨er, rfl, ⟨hp, fun ⟨p, h1, h2, _⟩ => hn ⟨by rw [h1]; rfl, by rw [ht1]; exact h2⟩⟩, ht1⟩⟩
  · rintro n w1 s2 hs2 ⟨rfl, ⟨er, e', -⟩ | ⟨n', e', ht2, hg, hn⟩⟩
    · cases e'
    · injection e' with e'; subst e'
      have inv2 : Inv C w1 s2.tpm := by rw [ht2]; exact inv.stored _ hg
      refine ex_bind (Q1 := fun r w' t => w' = w1 ∧ Kept (stored n e.gen s.tpm) t ∧ ((∃ p, r = .ok (some p) ∧ C.pub e.gen = some p) ∨ r = .error .crypto ∧ C.pub e.gen = none)) ?_ ?_ ?_
      · refine ex_tpmPublicKey hs2 inv2.cache n e.gen ?_ (fun p t' hp ht => ⟨rfl, by rw [← ht2]; exact ht, .inl ⟨p, rfl, hp⟩⟩)
          (fun t' hp ht => ⟨rfl, by rw [← ht2]; exact ht, .inr ⟨rfl, hp⟩⟩)
        rw [ht2]; simp only [stored]; rw [get_put, if_pos rfl]
      · rintro o w2 s3 hs3 ⟨rfl, ht3, ⟨p, e', hp⟩ | ⟨e', -⟩⟩
        · injection e' with e'; subst e'
          dsimp only
          have inv3 : Inv C w2 s3.tpm := (inv.stored e.gen hg).move rfl ht3
          have hgk : get n s3.tpm.keys = some (some e.gen) := by rw [ht3.keys]; simp only [stored]; rw [get_put, if_pos rfl]
          have hm := W.pair _ _ hp
          -- the name is that of no key yet
          have hno : w2.v.key n = none := by
            cases hkk : w2.v.key n with
            | none => rfl
            | some x =>
              obtain ⟨y, hy, -⟩ := inv.held n x hkk
              rw [hg] at hy; cases hy
          have co := (F.rep hs3.rep).coh
          by_cases hkn : KeyName i n
          · have hnf : NameFor C i id e.gen e.rnd n ∨ C.isHmac e.gen = true := by
              rcases hn with hn | hn
              · exact .inr hn.1
              · exact .inl hn
            refine ex_bind (Q1 := fun r w' t => t = s3.tpm ∧ ∃ x, r = .ok x ∧ w'.v = w2.v.addKey i n p ∧ w'.hs x = .alive (.key n) ∧
              (∀ x r, w2.hs x = .alive r → r ≠ .key n → w'.hs x = .alive r)) ?_ ?_ ?_
            · exact ex_addKey F hs3 p hh hkn (inv3.t.addKey co e.gen hgk hm (.inl hno)) (fun x w' a1 a2 a3 => ⟨rfl, x, rfl, a1, a2, a3⟩)
            · rintro x w3 s4 hs4 ⟨ht4, x', e', hv, hx, hlive⟩
              injection e' with e'; subst e'
              have inv4 : Inv C w3 s4.tpm := by
                have := inv3.t.addKey (i := i) co e.gen hgk hm (.inl hno)
                exact ⟨by rw [ht4]; exact inv3.cache, by rw [hv, ht4]; exact this.1, by rw [hv]; exact this.2⟩
              have hdc : w3.v.defCert n = none := by rw [hv]; exact Coherent.noDefCert co hno
              have hkey : w3.v.key n = some p := by rw [hv]; simp [View.addKey, upd]
              have hlv : Live w2 w3 := by
                intro x r hx'
                refine hlive x r hx' ?_
                rintro rfl
                have := alive_key hs3 hx'
                rw [hno] at this; cases this
              have gr : Grows w2.v w3.v := by rw [hv]; exact .addKey _ _ _ _ (.inl hno)
              refine ex_bind (Q1 := fun r w' t => Kept s4.tpm t ∧ ((r = .ok () ∧ (∃ c, CertName n c.name ∧ c.pub = p ∧ SelfSigned C n e c ∧ w'.v = w3.v.addCert c) ∧
                  (∀ x r, w3.hs x = .alive r → w'.hs x = .alive r)) ∨ ((∃ er, r = .error er ∧ er ≠ .pib ∧ ¬ SelfEncodable C n p e) ∧ Same w3 w'))) ?_ ?_ ?_
              · exact ex_selfSign F W hs4 inv4 e hx hdc
                  (fun c w' t' a1 a2 a6 a3 a4 a5 => ⟨a5, .inl ⟨rfl, ⟨c, a1, by rw [hkey] at a2; injection a2 with a2; exact a2.symm, a6, a3⟩, a4⟩⟩)
                  (fun er w' t' a0 a1 a2 a3 => ⟨a2, .inr ⟨⟨er, rfl, a0, a3 p hkey⟩, a1⟩⟩)
              · rintro _ w4 s5 hs5 ⟨ht5, ⟨-, ⟨c, hc1, hc2, hss, hc3⟩, hl⟩ | ⟨⟨er, e', -⟩, -⟩⟩
                · have hkc : w3.v.key c.keyName = some c.pub := by rw [crt_keyName hc1, hc2]; exact hkey
                  have inv5 : Inv C w4 s5.tpm := by
                    have := inv4.t.addCert hkc
                    exact ⟨ht5.cache, by rw [hc3, ht5.keys]; exact this.1, by rw [hc3]; exact this.2⟩
                  rcases hnf with hnf | hhm
                  · refine ex_pure hs5 _ (h1 _ _ _ ⟨n, p, c, hnf, hno, hg, hp, hc1, hc2, hl _ _ hx, ?_, ?_, ?_, hss⟩ inv5)
                    · rw [hc3, hv]
                    · rw [ht5.keys, ht4, ht3.keys]; rfl
                    · intro x r hx'; exact hl _ _ (hlv x r hx')
                  · exfalso
                    -- a key for HMAC has no public key
                    rcases hn with ⟨-, rfl⟩ | hn
                    · exact absurd hp (by rw [W.hmac _ hhm]; simp)
                    · exact absurd hp (by rw [W.hmac _ hhm]; simp)
                · cases e'
              · rintro er w4 t4 ⟨ht5, ⟨e', -⟩ | ⟨⟨er', e', hp', hne⟩, hsm⟩⟩
                · cases e'
                · injection e' with e'; subst e'
                  have hnf' : NameFor C i id e.gen e.rnd n := by
                    rcases hnf with hnf | hhm
                    · exact hnf
                    · exact absurd hp (by rw [W.hmac _ hhm]; simp)
                  exact h2 _ _ _ hp' (fun ⟨p', b1, _, b2⟩ => hne (by rw [hp] at b1; injection b1 with b1; subst b1; exact b2 n hnf')) (by rw [hsm.v]; exact gr) (fun x r hx' => hsm.live _ _ (hlv x r hx'))
                    (by rw [ht5.keys, ht4, ht3.keys]; exact keysGrow_put _ hg) (inv4.move hsm.v ht5)
            · rintro er w3 t3 ⟨-, x, e', -⟩; cases e'
          · -- only for HMAC
            exfalso
            rcases hn with ⟨hhm, -⟩ | hn
            · exact absurd hp (by rw [W.hmac _ hhm]; simp)
            · exact hkn (nameFor_key hn)
        · cases e'
      · rintro er w2 t2 ⟨rfl, ht3, ⟨p, e', -⟩ | ⟨e', hpn⟩⟩
        · cases e'
        · injection e' with e'; subst e'
          exact h2 _ _ _ (by decide) (fun ⟨p', b1, _⟩ => by rw [hpn] at b1; cases b1) (.refl _) (fun _ _ h => h) (by rw [ht3.keys]; exact keysGrow_put _ hg) ((inv.stored e.gen hg).move rfl ht3)
  · rintro er w1 t1 ⟨rfl, ⟨er', e', hp, ht⟩ | ⟨n, e', -⟩⟩
    · injection e' with e'; subst e'
      rw [ht]; exact h2 _ _ _ hp.1 hp.2 (.refl _) (fun _ _ h => h) (fun _ _ h => h) inv
    · cases e'

end Ndn.KeyChain
