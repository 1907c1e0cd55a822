import Verif.KeyChain.HistSpec
import Verif.KeyChain.Ops3
namespace Ndn.KeyChain
open Ndn.Name Ndn.Tlv Ndn.Block Ndn.Packet Ndn.Pib Ndn.Pib.Spec Ndn.KeyChain.Spec

variable {σ K α β : Type} {b : Backend σ} {R : σ → View → Prop} {A : View → PName → Prop}
  {T : View → List (PName × Option K) → Prop} {s : St σ K} {w : World} {C : Crypto K}

theorem signRes_of_tail {d : DObj} {si : SigInfo} {n : PName} {a : Alg} {t t' : Tpm K} {r : Except Err DObj} (h : Tail C d si n a t r t') :
    SignRes C d si n a t.priv r ∧ t'.priv = t.priv := by
  obtain ⟨hk, h⟩ := h
  refine ⟨?_, priv_keys hk.keys⟩
  unfold SignRes
  rcases h with ⟨u, sig, d', hs, hd, rfl⟩ | ⟨rfl, hu | ⟨u, sig, hu, hs, hf⟩⟩ | ⟨u, e, hu, hs, rfl⟩
  · rw [hd.1]
    dsimp only
    rcases hs with ⟨h1, h2⟩ | ⟨h1, x, h2, h3⟩
    · rw [if_pos h1, ← h2]; exact .inl ⟨d', hd, rfl⟩
    · rw [if_neg h1, show t.priv n = some (some x) from h2]
      dsimp only
      rw [h3]; exact .inl ⟨d', hd, rfl⟩
  · rw [hu]
  · rw [hu]
    dsimp only
    rcases hs with ⟨h1, h2⟩ | ⟨h1, x, h2, h3⟩
    · rw [if_pos h1, ← h2]; exact .inr ⟨hf, rfl⟩
    · rw [if_neg h1, show t.priv n = some (some x) from h2]
      dsimp only
      rw [h3]; exact .inr ⟨hf, rfl⟩
  · rw [hu]
    dsimp only
    obtain ⟨h1, hs⟩ := hs
    rw [if_neg h1]
    rcases hs with ⟨h2, rfl⟩ | ⟨h2, rfl⟩ | ⟨x, h2, h3, rfl⟩
    · rw [show t.priv n = none from h2]
    · rw [show t.priv n = some none from h2]
    · rw [show t.priv n = some (some x) from h2]
      dsimp only
      rw [h3]

/-- The world of a state. -/
abbrev kwOf (w : World) (t : Tpm K) : KWorld K := ⟨w, t.priv⟩

theorem signStep_of {p : SInfo K} {d : DObj} {t t' : Tpm K} {r : Except Err DObj} {w' : World} (h : SignOut C w p d t r w' t') :
    SignStep C (kwOf w t) p d r (kwOf w' t') := by
  obtain ⟨hsm, h⟩ := h
  refine ⟨hsm.v, hsm.live, ?_⟩
  rcases h with ⟨k, loc, bits, h1, h2, h3⟩ | ⟨h1, h2⟩ | ⟨h1, t1, h2, h3⟩ | ⟨h1, h2, h3, h4, h5⟩
  · exact .inl ⟨k, loc, bits, h1, h2, (signRes_of_tail h3).2, (signRes_of_tail h3).1⟩
  · exact .inr (.inl ⟨h1, (signRes_of_tail h2).2, (signRes_of_tail h2).1⟩)
  · refine .inr (.inr (.inl ⟨h1, ?_, ?_⟩))
    · show t'.priv = _
      rw [(signRes_of_tail h3).2]
      show t1.priv = if (t.priv p.name).isSome then t.priv else upd t.priv p.name (some p.hmac)
      rcases h2 with ⟨rfl, h2⟩ | ⟨h2, rfl⟩
      · exact (if_pos h2).symm
      · rw [show t.priv p.name = none from h2]
        simp only [Option.isSome_none, Bool.false_eq_true, if_false]
        exact priv_put rfl
    · show SignRes C d _ p.name p.alg t'.priv r
      rw [(signRes_of_tail h3).2]; exact (signRes_of_tail h3).1
  · exact .inr (.inr (.inr ⟨by rw [h1], h2, h3, h4, h5⟩))

theorem isCert_iff {d : DObj} : IsCert d ↔ (toCert d).isSome := by
  constructor
  · rintro ⟨hk, h2, h3⟩
    unfold toCert
    rw [(validCert_iff _).mpr hk]
    simp [h2, h3]
  · intro h
    obtain ⟨c, hc⟩ := Option.isSome_iff_exists.mp h
    obtain ⟨h1, h2, h3, h4, h5, h6⟩ := toCert_name hc
    rw [h1] at h4
    exact ⟨h4, h5, h6⟩

/-! ## Certificates -/

/-- `rs` becomes the result of making a certificate. -/
def CertRes (rs : Except Err DObj) (r : Except Err DObj) : Prop :=
  match rs with
  | .ok d => ((toCert d).isSome → r = .ok d) ∧ (toCert d = none → r = .error .cert)
  | .error e => r = .error e

theorem ex_certPacket (F : Faithful b R A) (W : Works C) (hs : Sim R s.pib w) (inv : Inv C w s.tpm) (n : PName) (pub : Bytes) (p : SInfo K) (o : CertOpts)
    {Q : Except Err DObj → World → Tpm K → Prop} (h1 : o.freshness ≤ 0 → Q (.error .invalid) w s.tpm)
    (h2 : ∀ rs r w' t', ¬ o.freshness ≤ 0 →
      SignOut C w { p with info := (SObj.addCustom ⟨none, p.info⟩ o.validity).s } (certData n pub o) s.tpm rs w' t' → CertRes rs r → Q r w' t') :
    Ex R (TT C) s (makeCertPacket C b n pub p o) Q := by
  refine ex_makeCertPacket F W hs inv n pub p o h1 ?_ ?_
  · intro r w' t' hf ho hr
    refine h2 r r w' t' (by omega) ho ?_
    unfold CertRes
    cases r with
    | error e => rfl
    | ok d =>
      refine ⟨fun _ => rfl, fun hn => ?_⟩
      have := hr d rfl
      rw [hn] at this; cases this
  · intro d w' t' hf ho hr
    refine h2 (.ok d) _ w' t' (by omega) ho ⟨fun h => ?_, fun _ => rfl⟩
    rw [hr] at h; cases h

/-- The outcome of `makeCertificate`. -/
def certOut (r : Except Err DObj) : Except Err KRes := r.map .data

theorem certStep_of {p : SInfo K} {o : CertOpts} {n : PName} {pub : Bytes} {t t' : Tpm K} {rs r : Except Err DObj} {w' : World}
    (hf : ¬ o.freshness ≤ 0)
    (h : SignOut C w { p with info := (SObj.addCustom ⟨none, p.info⟩ o.validity).s } (certData n pub o) t rs w' t') (hr : CertRes rs r) :
    CertStep C (kwOf w t) n pub p o (r.map .data) (kwOf w' t') := by
  unfold CertStep
  rw [if_neg hf]
  refine ⟨rs, signStep_of h, ?_⟩
  cases rs with
  | error e => cases hr; rfl
  | ok d =>
    dsimp only
    split
    · rename_i hc
      rw [hr.1 (isCert_iff.mp hc)]; rfl
    · rename_i hc
      have : toCert d = none := by
        cases e : toCert d with
        | none => rfl
        | some c => exact absurd (isCert_iff.mpr (by rw [e]; rfl)) hc
      rw [hr.2 this]; rfl

/-! ## Every call -/

theorem unchanged_of {w' : World} {t t' : Tpm K} (h : Same w w') (ht : SameKeys t t') : Unchanged (kwOf w t) (kwOf w' t') :=
  ⟨h.v, h.live, by funext n; exact ht n⟩

theorem extended_of {w' : World} {t t' : Tpm K} (h1 : Grows w.v w'.v) (h2 : Live w w') (h3 : KeysGrow t.keys t'.keys) :
    Extended (kwOf w t) (kwOf w' t') := ⟨h1, h2, h3⟩

theorem ex_map {m : KM σ K α} {f : α → KRes} {Q : Except Err KRes → World → Tpm K → Prop}
    (h : Ex R T s m (fun r w' t' => Q (r.map f) w' t')) : Ex R T s (m >>= fun a => pure (f a)) Q := by
  refine ex_bind h ?_ ?_
  · intro a w1 s1 hs1 hq; exact ex_pure hs1 _ hq
  · intro e w1 t1 hq; exact hq

theorem not_ident {w : World} {h : Nat} (hn : identOf w h = none) {p : PName → Prop} {q : Prop} :
    (match w.hs h with | .alive (.ident i) => p i | _ => q) ↔ q := by
  unfold identOf at hn
  split at hn
  · cases hn
  · rename_i hx
    split
    · rename_i i e; exact absurd e (hx i)
    · rfl

theorem not_key {w : World} {h : Nat} (hn : keyOfH w h = none) {p : PName → Prop} {q : Prop} :
    (match w.hs h with | .alive (.key i) => p i | _ => q) ↔ q := by
  unfold keyOfH at hn
  split at hn
  · cases hn
  · rename_i hx
    split
    · rename_i i e; exact absurd e (hx i)
    · rfl

theorem withIdent_of {v : View} {i : PName} (h : v.ident i = true) : withIdent v i = v := by unfold withIdent; rw [if_pos h]

/-- The conclusion for a call. -/
def Good (C : Crypto K) (w : World) (t : Tpm K) (op : KOp K) (r : Except Err KRes) (w' : World) (t' : Tpm K) : Prop :=
  KStep C (kwOf w t) op r (kwOf w' t') ∧ Inv C w' t'

theorem good_createIdentity (F : Faithful b R A) (W : Works C) (hs : Sim R s.pib w) (inv : Inv C w s.tpm) (n : PName) (id : KeyId) (e : Env K)
    (hf : KFits C (kwOf w s.tpm) (.createIdentity n id e)) :
    Ex R (TT C) s (kop C b (.createIdentity n id e)) (Good C w s.tpm (.createIdentity n id e)) := by
  refine ex_map (ex_createIdentity F W hs inv e n id hf ?_ ?_)
  · intro h w' t' a1 a2 a3 a4 a5 a6
    exact ⟨.inl ⟨h, rfl, a1, a4, a2, a5⟩, a6⟩
  · intro er w' t' a1 a0 a2 a3 a4 a5
    exact ⟨.inr ⟨er, rfl, a1, a0, extended_of a2 a3 a4⟩, a5⟩

theorem good_deleteIdentity (F : Faithful b R A) (hs : Sim R s.pib w) (inv : Inv C w s.tpm) (h : Nat) :
    Ex R (fun _ _ => True) s (kop C b (.deleteIdentity h)) (Good C w s.tpm (.deleteIdentity h)) := by
  refine ex_map (f := fun _ => KRes.done) (ex_deleteIdentity F hs inv h ?_ ?_)
  · intro i w' t' a1 a2 a3 a4 a5
    refine ⟨?_, a5⟩
    simp only [KStep, kwOf, a1]
    refine ⟨rfl, ?_⟩
    rw [a2]
    congr 1
    funext n
    by_cases hx : KeyName i n ∧ (w.v.key n).isSome
    · exact (a3 n hx.1 hx.2).trans (if_pos hx).symm
    · exact (a4 n hx).trans (if_neg hx).symm
  · intro hn
    refine ⟨?_, inv⟩
    simp only [KStep, kwOf]
    exact (not_ident hn).mpr ⟨rfl, by first | rfl | trivial⟩

theorem good_setDefaultIdentity (F : Faithful b R A) (hs : Sim R s.pib w) (inv : Inv C w s.tpm) (h : Nat) :
    Ex R (TT C) s (kop C b (.setDefaultIdentity h)) (Good C w s.tpm (.setDefaultIdentity h)) := by
  refine ex_map (f := fun _ => KRes.done) (ex_setDefaultIdentity F hs inv h ?_ ?_)
  · intro i w' a1 a2 a3 a4
    refine ⟨?_, a4⟩
    simp only [KStep, kwOf, a1]
    exact ⟨rfl, by rw [a2, withIdent_of (alive_ident hs a1)], a3, by first | rfl | trivial⟩
  · intro hn
    refine ⟨?_, inv⟩
    simp only [KStep, kwOf]
    exact (not_ident hn).mpr ⟨rfl, by first | rfl | trivial⟩

theorem good_createKey (F : Faithful b R A) (W : Works C) (hs : Sim R s.pib w) (inv : Inv C w s.tpm) (h : Nat) (id : KeyId) (e : Env K)
    (hf : KFits C (kwOf w s.tpm) (.createKey h id e)) :
    Ex R (TT C) s (kop C b (.createKey h id e)) (Good C w s.tpm (.createKey h id e)) := by
  refine ex_map ?_
  cases hi : identOf w h with
  | none =>
    unfold createKey
    refine ex_bindAt (at_identValid hs h) ?_
    rw [hi]
    refine ex_raise hs _ ⟨?_, inv⟩
    simp only [KStep, kwOf]
    exact (not_ident hi).mpr ⟨rfl, by first | rfl | trivial⟩
  | some i =>
    have hh := identOf_iff.mp hi
    refine ex_createKey F W hs inv e id hh (hf i hh) ?_ ?_
    · rintro kh w' t' ⟨k, p, c, a1, a2, a3, a4, a5, a6, a7, a8, a9, a10, a11⟩ hinv
      refine ⟨?_, hinv⟩
      simp only [KStep, kwOf, hh]
      exact .inl ⟨kh, k, rfl, a7, a10, p, c, a1, a2, a3, a4, a5, a6, a11, a8, priv_put a9⟩
    · intro er w' t' _ a0 a1 a2 a3 a4
      refine ⟨?_, a4⟩
      simp only [KStep, kwOf, hh]
      exact .inr ⟨er, rfl, a0, extended_of a1 a2 a3⟩

theorem good_createHmacKey (hs : Sim R s.pib w) (inv : Inv C w s.tpm) (n : PName) (id : KeyId) (e : Env K)
    (hf : KFits C (kwOf w s.tpm) (.createHmacKey n id e)) :
    Ex R (TT C) s (kop C b (.createHmacKey n id e)) (Good C w s.tpm (.createHmacKey n id e)) := by
  refine ex_map (ex_tpmCreateKey hs n id e.gen e.rnd hf (fun n hn => ⟨inv.held.put _ hn, inv.certs⟩) ?_ ?_ ?_)
  · intro a1 a2
    refine ⟨.inl ⟨_, rfl, ?_, a2, ?_⟩, inv.stored _ a2⟩
    · rw [if_pos a1]
    · show (⟨w, _⟩ : KWorld K) = ⟨w, _⟩
      congr 1; exact priv_put rfl
  · intro k a1 a2 a3
    refine ⟨.inl ⟨_, rfl, ?_, a3, ?_⟩, inv.stored _ a3⟩
    · rw [if_neg (by rw [a1]; simp)]; exact a2
    · show (⟨w, _⟩ : KWorld K) = ⟨w, _⟩
      congr 1; exact priv_put rfl
  · intro er _ a1 a2
    exact ⟨.inr ⟨er, rfl, a1, a2, rfl⟩, inv⟩

theorem good_deleteKey (F : Faithful b R A) (hs : Sim R s.pib w) (inv : Inv C w s.tpm) (h k : Nat) (hA : ∀ n, w.hs k = .alive (.key n) → A w.v n) :
    Ex R (TT C) s (kop C b (.deleteKey h k)) (Good C w s.tpm (.deleteKey h k)) := by
  refine ex_map (f := fun _ => KRes.done) (ex_deleteKey F hs inv h k hA ?_ ?_ ?_)
  · intro i n w' t' a1 a2 a3 a4 a5 a6
    refine ⟨?_, a6⟩
    simp only [KStep, kwOf, a1, a2, if_pos a3]
    refine ⟨rfl, ?_⟩
    rw [a4, a5]
    congr 1
    funext m
    simp only [Tpm.priv, upd]
    rw [get_del]
  · intro a1 a2
    refine ⟨?_, inv⟩
    obtain ⟨i, hi⟩ := Option.isSome_iff_exists.mp a1
    have hh := identOf_iff.mp hi
    simp only [KStep, kwOf, hh]
    unfold keyOfH at a2
    split at a2
    · cases a2
    · rename_i hx
      split
      · rename_i e1 e2; exact absurd e2 (hx _)
      · exact ⟨rfl, by first | rfl | trivial⟩
      · rename_i e2 e3; exact absurd rfl (e2 i)
  · intro er a0 a1
    refine ⟨?_, inv⟩
    simp only [KStep, kwOf]
    split
    · rename_i i n e1 e2
      rw [if_neg (a1 i n e1 e2)]
      exact ⟨⟨er, rfl⟩, by first | rfl | trivial⟩
    · rename_i i e1 hn
      rcases a0 with a0 | ⟨n, a0⟩
      · rw [identOf_iff.mpr e1] at a0; cases a0
      · exact absurd a0 (hn n)
    · exact ⟨⟨er, rfl⟩, by first | rfl | trivial⟩

theorem good_setDefaultKey (F : Faithful b R A) (hs : Sim R s.pib w) (inv : Inv C w s.tpm) (h k : Nat) :
    Ex R (TT C) s (kop C b (.setDefaultKey h k)) (Good C w s.tpm (.setDefaultKey h k)) := by
  refine ex_map (f := fun _ => KRes.done) (ex_setDefaultKey F hs inv h k ?_ ?_)
  · intro i n w' a1 a2 a3 a4 a5 a6
    refine ⟨?_, a6⟩
    simp only [KStep, kwOf, a1, a2, if_pos a3]
    exact ⟨rfl, a4, a5, by first | rfl | trivial⟩
  · intro er a1
    refine ⟨?_, inv⟩
    simp only [KStep, kwOf]
    split
    · rename_i i n e1 e2
      rw [if_neg (a1 i n e1 e2)]
      exact ⟨⟨er, rfl⟩, by first | rfl | trivial⟩
    · exact ⟨⟨er, rfl⟩, by first | rfl | trivial⟩

theorem good_onKey (F : Faithful b R A) (hs : Sim R s.pib w) (inv : Inv C w s.tpm) (h : Nat) (op : FOp) (hr : Real op) (hA : ∀ x n, op ≠ .removeKey x n)
    (hf : Fits w op) (hst : ∀ n out w', w.hs h = .alive (.key n) → Step w op out w' → TT C w'.v s.tpm.keys) :
    Ex R (TT C) s (do onKeyHandle b h op; pure KRes.done) (fun r w' t' => OnKey (kwOf w s.tpm) h op r (kwOf w' t') ∧ Inv C w' t') := by
  refine ex_map (f := fun _ => KRes.done) (ex_onKey F hs inv h op hr hA (fun _ _ => hf) hst ?_ ?_)
  · intro n out w' a1 a2 a3
    refine ⟨?_, a3⟩
    simp only [OnKey, kwOf, a1]
    refine ⟨out, a2, ?_, by first | rfl | trivial⟩
    unfold pibRes
    cases outErr out <;> rfl
  · intro hn
    refine ⟨?_, inv⟩
    simp only [OnKey, kwOf]
    exact (not_key hn).mpr ⟨rfl, by first | rfl | trivial⟩

theorem good_importSafeBag (F : Faithful b R A) (hs : Sim R s.pib w) (inv : Inv C w s.tpm) (c : Crt) (enc pw msg : Bytes)
    (hf : KFits C (kwOf w s.tpm) (.importSafeBag c enc pw msg)) :
    Ex R (TT C) s (kop C b (.importSafeBag c enc pw msg)) (Good C w s.tpm (.importSafeBag c enc pw msg)) := by
  obtain ⟨⟨k, hc⟩, ts⟩ := hf
  refine ex_map (f := fun _ => KRes.done) (ex_importSafeBag F hs inv c enc pw msg hc ts ?_ ?_)
  · intro x w' t' hi a1 a2 a3 a4 a5 a6 a7
    refine ⟨⟨k, hc, ?_⟩, a7⟩
    rw [if_pos hi]
    exact ⟨x, a1, rfl, a5, a3, a4, priv_put a6⟩
  · intro w' t' a1 a2 a3 a4
    refine ⟨⟨k, hc, ?_⟩, a4⟩
    rw [if_neg a1]
    exact ⟨rfl, unchanged_of a2 a3⟩

theorem good_importPrivateKey (hs : Sim R s.pib w) (inv : Inv C w s.tpm) (n : PName) (x : K) :
    Ex R (TT C) s (kop C b (.importPrivateKey n x)) (Good C w s.tpm (.importPrivateKey n x)) := by
  refine ex_map (f := fun _ => KRes.done) (ex_importPrivateKey hs inv n x ?_ ?_)
  · intro a1 a2
    refine ⟨?_, a2⟩
    simp only [KStep, kwOf]
    rw [if_pos (show s.tpm.priv n = none from a1)]
    refine ⟨rfl, ?_⟩
    congr 1; exact priv_put rfl
  · intro a1
    refine ⟨?_, inv⟩
    simp only [KStep, kwOf]
    rw [if_neg (fun h : s.tpm.priv n = none => by rw [show get n s.tpm.keys = none from h] at a1; cases a1)]
    exact ⟨rfl, by first | rfl | trivial⟩

theorem good_sign (F : Faithful b R A) (W : Works C) (hs : Sim R s.pib w) (inv : Inv C w s.tpm) (d : DObj) (p : SInfo K) :
    Ex R (TT C) s (kop C b (.sign d p)) (Good C w s.tpm (.sign d p)) := by
  refine ex_map ((ex_signData F W hs inv d p).mono ?_)
  intro r w' t' h
  exact ⟨⟨r, signStep_of h, rfl⟩, h.inv inv⟩

theorem good_certPacket (F : Faithful b R A) (W : Works C) (hs : Sim R s.pib w) (inv : Inv C w s.tpm) (n : PName) (pub : Bytes) (p : SInfo K) (o : CertOpts) :
    Ex R (TT C) s (makeCertPacket C b n pub p o) (fun r w' t' => CertStep C (kwOf w s.tpm) n pub p o (r.map .data) (kwOf w' t') ∧ Inv C w' t') := by
  refine ex_certPacket F W hs inv n pub p o ?_ ?_
  · intro hf
    refine ⟨?_, inv⟩
    unfold CertStep
    rw [if_pos hf]
    exact ⟨rfl, unchanged_of (.refl _) (fun _ => rfl)⟩
  · intro rs r w' t' hf ho hr
    exact ⟨certStep_of hf ho hr, ho.inv inv⟩

theorem good_makeCert (F : Faithful b R A) (W : Works C) (hs : Sim R s.pib w) (inv : Inv C w s.tpm) (h : Nat) (p : SInfo K) (o : CertOpts) :
    Ex R (TT C) s (kop C b (.makeCert h p o)) (Good C w s.tpm (.makeCert h p o)) := by
  refine ex_map ?_
  unfold makeCert
  cases hk : keyOfH w h with
  | none =>
    refine ex_bind (Q1 := fun r w' t => t = s.tpm ∧ w' = w ∧ r = .error .domain) ?_ ?_ ?_
    · refine ex_wrap F hs (.keyName h) trivial trivial (fun _ _ h => by cases h) ?_ _
        (fun o => match outErr o with | some e => .error e | none => match o with | .names h => .ok h | _ => .error .ub) ?_ ?_ ?_
      · intro out w' hst
        rw [(step_query rfl hst).v]; exact inv.t
      · intro o e h; simp only [h]
      · intro o s h; simp only [h]; cases o <;> first | rfl | (cases h)
      · intro out w' hst
        simp only [Step, onKey] at hst
        obtain ⟨rfl, rfl⟩ := (not_key hk).mp hst
        exact ⟨rfl, rfl, rfl⟩
    · rintro a w1 s1 _ ⟨-, -, e'⟩; cases e'
    · rintro e w1 t1 ⟨rfl, rfl, e'⟩
      cases e'
      refine ⟨?_, inv⟩
      simp only [KStep, kwOf]
      exact (not_key hk).mpr ⟨rfl, by first | rfl | trivial⟩
  | some k =>
    have hh := keyOfH_iff.mp hk
    refine exb_keyName F hs inv.t hh (fun s2 hs2 ht2 => ?_)
    have inv2 : Inv C w s2.tpm := by rw [ht2]; exact inv
    refine exb_keyBits F hs2 inv2.t hh (fun s3 bits hs3 ht3 hb => ?_)
    have inv3 : Inv C w s3.tpm := by rw [ht3]; exact inv2
    dsimp only [List.headD_cons]
    refine (good_certPacket F W hs3 inv3 k bits p o).mono ?_
    rintro r w' t' ⟨h1, h2⟩
    rw [ht3, ht2] at h1
    refine ⟨?_, h2⟩
    simp only [KStep, kwOf, hh]
    exact ⟨bits, hb, h1⟩

theorem good_makeCertFor (F : Faithful b R A) (W : Works C) (hs : Sim R s.pib w) (inv : Inv C w s.tpm) (req : Crt) (p : SInfo K) (o : CertOpts) :
    Ex R (TT C) s (kop C b (.makeCertFor req p o)) (Good C w s.tpm (.makeCertFor req p o)) := by
  refine ex_map ?_
  unfold makeCertFor
  have bad : ¬ ((C.keyType req.pub).isSome ∧ ∃ k, CertName k req.name) →
      Ex R (TT C) s (raise .invalid) (fun r w' t' => Good C w s.tpm (.makeCertFor req p o) (r.map .data) w' t') := by
    intro hn
    refine ex_raise hs _ ⟨?_, inv⟩
    simp only [KStep]
    rw [if_neg hn]
    exact ⟨rfl, by first | rfl | trivial⟩
  cases hk : C.keyType req.pub with
  | none => exact bad (fun h => by rw [hk] at h; cases h.1)
  | some kt =>
    cases hn : keyOf req.name with
    | none =>
      refine bad (fun h => ?_)
      obtain ⟨-, k, hk'⟩ := h
      rw [(keyOf_iff _ _).mpr hk'] at hn; cases hn
    | some k =>
      have hc := (keyOf_iff _ _).mp hn
      refine (good_certPacket F W hs inv k req.pub p o).mono ?_
      rintro r w' t' ⟨h1, h2⟩
      refine ⟨?_, h2⟩
      simp only [KStep]
      rw [if_pos ⟨by rw [hk]; rfl, k, hc⟩]
      exact ⟨k, hc, h1⟩

theorem good_query (F : Faithful b R A) (hs : Sim R s.pib w) (inv : Inv C w s.tpm) (op : FOp) :
    Ex R (TT C) s (kop C b (.query op)) (Good C w s.tpm (.query op)) := by
  show Ex R (TT C) s (if isQuery op = true then (do let a ← Ndn.KeyChain.pib b op; pure (KRes.out a)) else pure KRes.done) _
  by_cases hq : isQuery op = true
  · rw [if_pos hq]
    refine ex_map (ex_query F hs inv op hq ?_)
    intro out w' h1 h2
    refine ⟨?_, inv.same h2 rfl⟩
    simp only [KStep]
    rw [if_pos hq]
    refine ⟨out, h1, h2.v, by first | rfl | trivial, ?_⟩
    unfold asRes
    cases outErr out <;> rfl
  · rw [if_neg hq]
    refine ex_pure hs _ ⟨?_, inv⟩
    simp only [KStep]
    rw [if_neg hq]
    exact ⟨by first | rfl | trivial, by first | rfl | trivial⟩

/-- What is known of the states passed: nothing while an identity is deleted. -/
def trailT (C : Crypto K) (op : KOp K) : View → List (PName × Option K) → Prop := fun v keys =>
  (∀ h, op ≠ .deleteIdentity h) → TT C v keys

theorem Ex.trail {T' : View → List (PName × Option K) → Prop} {m : KM σ K α} {Q : Except Err α → World → Tpm K → Prop} (h : Ex R T s m Q)
    (ht : ∀ v keys, T v keys → T' v keys) : Ex R T' s m Q := by
  obtain ⟨w', h1, h2, h3⟩ := h
  refine ⟨w', h1, h2, fun e he => ?_⟩
  rcases h3 e he with h | ⟨v, hr, h⟩
  · exact .inl h
  · exact .inr ⟨v, hr, ht _ _ h⟩

/-- The calls of both back ends. -/
def KFitsA (C : Crypto K) (A : View → PName → Prop) (kw : KWorld K) (op : KOp K) : Prop :=
  KFits C kw op ∧ ∀ h k n, op = .deleteKey h k → kw.pib.hs k = .alive (.key n) → A kw.pib.v n

theorem good (F : Faithful b R A) (W : Works C) (hs : Sim R s.pib w) (inv : Inv C w s.tpm) (op : KOp K)
    (hf : KFitsA C A (kwOf w s.tpm) op) : Ex R (trailT C op) s (kop C b op) (Good C w s.tpm op) := by
  have tr : ∀ v keys, TT C v keys → trailT C op v keys := fun _ _ h _ => h
  have co := (F.rep hs.rep).coh
  cases op with
  | createIdentity n id e => exact (good_createIdentity F W hs inv n id e hf.1).trail tr
  | deleteIdentity h => exact (good_deleteIdentity F hs inv h).trail (fun _ _ _ hn => absurd rfl (hn h))
  | setDefaultIdentity h => exact (good_setDefaultIdentity F hs inv h).trail tr
  | createKey h id e => exact (good_createKey F W hs inv h id e hf.1).trail tr
  | createHmacKey n id e => exact (good_createHmacKey hs inv n id e hf.1).trail tr
  | deleteKey h k => exact (good_deleteKey F hs inv h k (fun n => hf.2 h k n rfl)).trail tr
  | setDefaultKey h k => exact (good_setDefaultKey F hs inv h k).trail tr
  | addCertificate h c =>
    obtain ⟨hr, hf⟩ := hf.1
    refine (good_onKey F hs inv h (.addCert h c) hr (fun _ _ e => by cases e) hf ?_).trail tr
    intro n out w' hh hst
    simp only [Step, onKey, hh] at hst
    split at hst
    · rename_i hc
      obtain ⟨-, rfl⟩ := hst
      exact inv.t.addCert (by rw [crt_keyName hc.1]; exact hc.2)
    · obtain ⟨-, rfl⟩ := hst; exact inv.t
  | deleteCertificate h c =>
    refine (good_onKey F hs inv h (.removeCert h c) trivial (fun _ _ e => by cases e) trivial ?_).trail tr
    intro n out w' hh hst
    simp only [Step, onKey, hh] at hst
    split at hst
    · obtain ⟨-, rfl⟩ := hst
      exact inv.t.removeCert _
    · obtain ⟨-, rfl⟩ := hst; exact inv.t
  | setDefaultCertificate h c =>
    obtain ⟨hr, hf⟩ := hf.1
    refine (good_onKey F hs inv h (.setDefaultNewCert h c) hr (fun _ _ e => by cases e) hf ?_).trail tr
    intro n out w' hh hst
    simp only [Step, onKey, hh] at hst
    split at hst
    · rename_i hc
      obtain ⟨-, rfl⟩ := hst
      exact (inv.t.addCert (by rw [crt_keyName hc.1]; exact hc.2)).congr rfl rfl
    · obtain ⟨-, rfl⟩ := hst; exact inv.t
  | importSafeBag c enc pw msg => exact (good_importSafeBag F hs inv c enc pw msg hf.1).trail tr
  | importPrivateKey n k => exact (good_importPrivateKey hs inv n k).trail tr
  | sign d p => exact (good_sign F W hs inv d p).trail tr
  | makeCert h p o => exact (good_makeCert F W hs inv h p o).trail tr
  | makeCertFor req p o => exact (good_makeCertFor F W hs inv req p o).trail tr
  | query op => exact (good_query F hs inv op).trail tr

/-! ## Histories -/

theorem follows (F : Faithful b R A) (W : Works C) {P : KWorld K → KOp K → Prop} (hP : ∀ kw op, P kw op → KFitsA C A kw op)
    {G : KWorld K → KOp K → Except Err KRes → St σ K → KWorld K → Prop}
    (hG : ∀ (s : St σ K) w op r, Sim R s.pib w → Inv C w s.tpm → P (kwOf w s.tpm) op → ∀ (s' : St σ K) w', Sim R s'.pib w' → Inv C w' s'.tpm →
      KStep C (kwOf w s.tpm) op r (kwOf w' s'.tpm) → (∀ e ∈ s'.trail, ∃ v, R e.1 v ∧ trailT C op v e.2) →
      G (kwOf w s.tpm) op r s' (kwOf w' s'.tpm)) (ops : List (KOp K)) :
    ∀ {s : St σ K} {w : World}, Sim R s.pib w → Inv C w s.tpm → Follows C b P G (kwOf w s.tpm) s ops := by
  induction ops with
  | nil => intro s w _ _; trivial
  | cons op ops ih =>
    intro s w hs inv hp
    obtain ⟨w', h1, ⟨h2, h3⟩, h4⟩ := good (s := { s with trail := [] }) F W hs inv op (hP _ _ hp)
    refine ⟨kwOf w' _, hG { s with trail := [] } w op _ hs inv hp _ w' h1 h3 h2 ?_, ih h1 h3⟩
    intro e he
    rcases h4 e he with h | h
    · cases h
    · exact h

theorem stores_of (F : Faithful b R A) (hs : Sim R s.pib w) : Stores b (kwOf w s.tpm) s := ⟨(F.rep hs.rep).ans, fun _ => rfl⟩

theorem consistent_of {t : Tpm K} (inv : Inv C w t) : Consistent C (kwOf w t) := ⟨inv.held, inv.certs⟩

/-- A TPM that keeps the handles of what it stores signs with what it stores. -/
theorem sign_stored (hc : CacheOk s.tpm) {k : PName} {x : K} (hx : Pib.get k s.tpm.keys = some (some x)) {m sig : Bytes}
    (h : C.sign x .sha256 m = some sig) : (tpmSign C m k .sha256 s).1 = .ok (some sig) := by
  obtain ⟨s', hf⟩ : ∃ s', (tpmFind k : KM σ K (Option K)) s = (.ok (some x), s') := by
    unfold tpmFind
    cases e : Pib.get k s.tpm.cache with
    | some y =>
      have := hc k y e
      rw [hx] at this; injection this with this; injection this with this; subst this
      exact ⟨_, rfl⟩
    | none => rw [hx]; exact ⟨_, rfl⟩
  unfold tpmSign
  rw [bind_ok hf]
  dsimp only
  rw [h]
  rfl

theorem usable_of {db : σ} {v : View} (hr : Rep b db v) (hdb : s.pib.db = db) (hc : CacheOk s.tpm) (ht : TT C v s.tpm.keys) : Usable C b s := by
  subst hdb
  refine ⟨fun k bits hk m => ?_, fun c x hx => ?_⟩
  · obtain ⟨x, hx, hm⟩ := ht.1 k bits ((hr.bits_isSome k).mp hk)
    obtain ⟨sig, h1, h2⟩ := hm m
    exact ⟨sig, sign_stored hc hx h1, h2⟩
  · exact (hr.bits_isSome _).mpr (ht.2 c x ((hr.cert c x).mp hx))

theorem usable_reopen {v : View} {e : σ × List (PName × Option K)} (hr : Rep b e.1 v) (ht : TT C v e.2) : Usable C b (reopen b e) :=
  usable_of hr rfl (fun _ _ h => by cases h) ht

/-- No handle is given out yet. -/
def opened (v : View) : World := ⟨v, fun _ => .unused⟩

theorem reopen_sim (F : Faithful b R A) {db : σ} {v : View} (h : R db v) : Sim R (Front.start b db) (opened v) := by
  refine ⟨h, (F.rep h).ans.getIdentities, ?_, ?_, ?_, ?_, ?_, ?_, ?_, ?_, ?_, ?_, ?_, ?_, ?_, ?_⟩
  · intro o ho; cases ho
  · intro o ho; cases ho
  · intro h n e; cases e
  · intro o ho; cases ho
  · intro o ho; cases ho
  · intro o ho; cases ho
  · intro h n e; cases e
  · intro o ho; cases ho
  · intro o ho; cases ho
  · intro o ho; cases ho
  · intro o ho; cases ho
  · intro h l; rfl
  · intro o ho; cases ho
  · intro h e; cases e

theorem reopen_inv {v : View} {keys : List (PName × Option K)} (ht : TT C v keys) : Inv C (opened v) ⟨keys, []⟩ :=
  ⟨(fun _ _ h => by cases h), ht.1, ht.2⟩

end Ndn.KeyChain
