import Verif.Ndnsec.Cmds
import Verif.KeyChain.Hist
/-
Sequences of commands.
-/
namespace Ndn.Ndnsec
open Ndn.Name Ndn.Tlv Ndn.Block Ndn.Packet Ndn.Pib Ndn.Pib.Spec Ndn.KeyChain Ndn.KeyChain.Spec Ndn.Ndnsec.Spec

variable {σ K : Type} {b : Backend σ} {R : σ → View → Prop} {C : Crypto K}

/-- The stored state `e` and what it means. -/
abbrev storeAt (v : View) (e : σ × List (PName × Option K)) : Store K := ⟨v, fun n => get n e.2⟩

theorem holds_of (F : Faithful b R (fun _ _ => True)) {e : σ × List (PName × Option K)} {v : View} (h : R e.1 v) : Holds b e (storeAt v e) :=
  ⟨(F.rep h).ans, fun _ => rfl⟩

theorem whole_of (F : Faithful b R (fun _ _ => True)) {e : σ × List (PName × Option K)} {v : View} (h : R e.1 v) (ht : TT C v e.2) :
    Whole C (storeAt v e) := ⟨(F.rep h).coh, ht.1, ht.2⟩

/-- One command on what is stored. -/
theorem exec_step (F : Faithful b R (fun _ _ => True)) (W : Works C) {e : σ × List (PName × Option K)} {v : View} (h : R e.1 v) (ht : TT C v e.2)
    (cmd : Cmd K) (cut : Option Nat) (hf : CmdFits C (storeAt v e) cmd) (hc : cut.isSome → ¬ DeletesIdent cmd) :
    ∃ v', (∀ r, (exec C b e cmd cut).1 = some r → CmdStep C (storeAt v e) cmd r (storeAt v' (exec C b e cmd cut).2)) ∧
      R (exec C b e cmd cut).2.1 v' ∧ TT C v' (exec C b e cmd cut).2.2 := by
  obtain ⟨w', hs', ⟨hd, inv'⟩, htr⟩ := ex_command (s := reopen b e) F (reopen_sim F h) (reopen_inv ht) W cmd hf
  cases hcut : cut.bind (fun j => (e :: (run C b e cmd).2.trail.reverse)[j]?) with
  | none =>
    have he : exec C b e cmd cut = (some (exitOf (run C b e cmd).1), ((run C b e cmd).2.pib.db, (run C b e cmd).2.tpm.keys)) := by
      unfold exec; dsimp only; rw [hcut]
    rw [he]
    refine ⟨w'.v, ?_, hs'.rep, inv'.t⟩
    intro r hr
    injection hr with hr; subst hr
    exact hd
  | some e' =>
    have he : exec C b e cmd cut = (none, e') := by unfold exec; dsimp only; rw [hcut]
    rw [he]
    cases cut with
    | none => cases hcut
    | some j =>
      have hm : e' ∈ e :: (run C b e cmd).2.trail.reverse := List.mem_of_getElem? hcut
      have : ∃ v', R e'.1 v' ∧ TT C v' e'.2 := by
        rcases List.mem_cons.mp hm with rfl | hm
        · exact ⟨v, h, ht⟩
        · rw [List.mem_reverse] at hm
          rcases htr e' hm with h0 | ⟨v', h1, h2⟩
          · cases h0
          · exact ⟨v', h1, h2 (hc rfl)⟩
      obtain ⟨v', h1, h2⟩ := this
      exact ⟨v', (by intro r hr; cases hr), h1, h2⟩

/-- What is stored is determined by the answers. -/
theorem answers_unique {e : σ} {v v' : View} (h : Answers b e v) (h' : Answers b e v') (co : Coherent v) (co' : Coherent v') : v = v' := by
  have hcert : v.cert = v'.cert := by
    funext c
    have := (h.getCertificate c).symm.trans (h'.getCertificate c)
    revert this
    cases v.cert c <;> cases v'.cert c <;> simp
  refine View.ext ?_ ?_ ?_ ?_ hcert ?_
  · funext i; rw [← h.hasIdentity, ← h'.hasIdentity]
  · have := h.getDefaultIdentity.symm.trans h'.getDefaultIdentity
    revert this
    cases v.defIdent <;> cases v'.defIdent <;> simp
  · funext k
    have := (h.getKeyBits k).symm.trans (h'.getKeyBits k)
    revert this
    cases v.key k <;> cases v'.key k <;> simp
  · funext i
    have := (h.getDefaultKey i).symm.trans (h'.getDefaultKey i)
    revert this
    cases v.defKey i <;> cases v'.defKey i <;> simp
  · funext k
    have := (h.getDefaultCertificate k).symm.trans (h'.getDefaultCertificate k)
    rw [← hcert] at this
    cases e1 : v.defCert k with
    | none =>
      cases e2 : v'.defCert k with
      | none => rfl
      | some c =>
        obtain ⟨z, hz⟩ := Option.isSome_iff_exists.mp (co'.cert k c e2).1
        rw [← hcert] at hz
        rw [e1, e2] at this
        simp [hz] at this
    | some c =>
      obtain ⟨z, hz⟩ := Option.isSome_iff_exists.mp (co.cert k c e1).1
      cases e2 : v'.defCert k with
      | none => rw [e1, e2] at this; simp [hz] at this
      | some c' =>
        obtain ⟨z', hz'⟩ := Option.isSome_iff_exists.mp (co'.cert k c' e2).1
        rw [← hcert] at hz'
        rw [e1, e2] at this
        simp only [Option.bind_some, hz, hz', Res.ok.injEq] at this
        subst this
        have a1 := co.named c z hz
        have a2 := co.named c' z hz'
        rw [← a1, ← a2]

theorem store_unique (F : Faithful b R (fun _ _ => True)) {e : σ × List (PName × Option K)} {v : View} (h : R e.1 v) {y : Store K}
    (hy : Holds b e y) (co : Coherent y.v) : y = storeAt v e := by
  have h1 := answers_unique hy.pib (F.rep h).ans co (F.rep h).coh
  have h2 : y.priv = fun n => get n e.2 := by funext n; exact (hy.tpm n).symm
  cases y with
  | mk yv yp =>
    dsimp only at h1 h2
    rw [h1, h2]

theorem reached_inv (F : Faithful b R (fun _ _ => True)) (W : Works C) {x : Store K} {e : σ × List (PName × Option K)} (h : Reached C b x e) :
    ∃ v, R e.1 v ∧ TT C v e.2 ∧ x = storeAt v e := by
  induction h with
  | start =>
    exact ⟨View.empty, F.init, ⟨(fun _ _ h => by cases h), (fun _ _ h => by cases h)⟩, rfl⟩
  | @next x e cmd cut y _ hf hc hy co ih =>
    obtain ⟨v, h1, h2, rfl⟩ := ih
    obtain ⟨v', -, h3, h4⟩ := exec_step F W h1 h2 cmd cut hf hc
    exact ⟨v', h3, h4, store_unique F h3 hy co⟩

/-- One command on what is reached. -/
theorem reached_step (F : Faithful b R (fun _ _ => True)) (W : Works C) {x : Store K} {e : σ × List (PName × Option K)} (h : Reached C b x e)
    (cmd : Cmd K) (cut : Option Nat) (hf : CmdFits C x cmd) (hc : cut.isSome → ¬ DeletesIdent cmd) :
    ∃ y, (∀ r, (exec C b e cmd cut).1 = some r → CmdStep C x cmd r y) ∧ Reached C b y (exec C b e cmd cut).2 := by
  obtain ⟨v, h1, h2, rfl⟩ := reached_inv F W h
  obtain ⟨v', h3, h4, h5⟩ := exec_step F W h1 h2 cmd cut hf hc
  exact ⟨_, h3, .next h hf hc (holds_of F h4) (F.rep h4).coh⟩

theorem reached_good (F : Faithful b R (fun _ _ => True)) (W : Works C) {x : Store K} {e : σ × List (PName × Option K)} (h : Reached C b x e) :
    Holds b e x ∧ Whole C x ∧ Usable C b (reopen b e) := by
  obtain ⟨v, h1, h2, rfl⟩ := reached_inv F W h
  exact ⟨holds_of F h1, whole_of F h1 h2, usable_reopen (F.rep h1) h2⟩

/-- A command that is not killed ends. -/
theorem exec_none (e : σ × List (PName × Option K)) (cmd : Cmd K) : ∃ r, (exec C b e cmd none).1 = some r := ⟨_, rfl⟩

end Ndn.Ndnsec
