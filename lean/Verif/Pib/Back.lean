import Verif.Pib.Mem
import Verif.Pib.SqlStep
namespace Ndn.Pib
open Ndn.Name Spec

/-- A state stands for a view. -/
structure Rep {σ : Type} (b : Backend σ) (s : σ) (v : View) : Prop where
  ans : Answers b s v
  coh : Coherent v

variable {σ : Type} {b : Backend σ} {s s' : σ} {v v' : View}

theorem Rep.bits_isSome (h : Rep b s v) (k : PName) {x : Bytes} : b.getKeyBits s k = .ok x ↔ v.key k = some x := by
  rw [h.ans.getKeyBits]
  cases v.key k <;> simp

theorem Rep.defIdent (h : Rep b s v) (i : PName) : b.getDefaultIdentity s = .ok i ↔ v.defIdent = some i := by
  rw [h.ans.getDefaultIdentity]
  cases v.defIdent <;> simp

theorem Rep.defKey (h : Rep b s v) (i k : PName) : b.getDefaultKey s i = .ok k ↔ v.defKey i = some k := by
  rw [h.ans.getDefaultKey]
  cases v.defKey i <;> simp

theorem Rep.cert (h : Rep b s v) (c : PName) (x : Crt) : b.getCertificate s c = .ok x ↔ v.cert c = some x := by
  rw [h.ans.getCertificate]
  cases v.cert c <;> simp

theorem Rep.defCert (h : Rep b s v) (k : PName) (c : Crt) :
    b.getDefaultCertificate s k = .ok c ↔ v.defCert k = some c.name ∧ v.cert c.name = some c := by
  rw [h.ans.getDefaultCertificate]
  cases hd : v.defCert k with
  | none => simp
  | some n =>
    obtain ⟨hs, hc⟩ := h.coh.cert k n hd
    obtain ⟨x, hx⟩ := Option.isSome_iff_exists.1 hs
    have hn := h.coh.named n x hx
    simp only [Option.bind_some, hx]
    constructor
    · intro e; injection e with e; subst e; rw [hn]; exact ⟨rfl, hx⟩
    · rintro ⟨e, e'⟩; injection e with e; subst e; rw [hx] at e'; injection e' with e'; rw [e']

theorem Rep.sound (h : Rep b s v) : Sound b s where
  ident := fun i hi => by rw [h.ans.hasIdentity]; exact h.coh.ident i ((h.defIdent i).1 hi)
  key := fun i k hk => by
    have := h.coh.key i k ((h.defKey i k).1 hk)
    rw [h.ans.hasKey]; exact ⟨this.2, this.1⟩
  cert := fun k c hc => by
    have hc := (h.defCert k c).1 hc
    exact ⟨(h.coh.cert _ _ hc.1).2, (h.cert _ _).2 hc.2⟩
  parent := fun k hk => by
    rw [h.ans.hasKey] at hk
    obtain ⟨i, hi⟩ := h.coh.parent k hk
    exact ⟨i, by rw [h.ans.hasIdentity]; exact hi⟩
  issuer := fun k hk => by
    rw [h.ans.hasCertificate] at hk
    obtain ⟨i, hi⟩ := h.coh.issuer k hk
    exact ⟨i, by rw [h.ans.hasKey]; exact hi⟩

theorem gone_of_rep (h : Rep b s v) {i : PName} (h' : Rep b s' (v.removeIdent i)) : Gone b s s' i where
  self := by rw [h'.ans.hasIdentity]; simp [View.removeIdent, upd]
  keys := fun k hk => by rw [h'.ans.hasKey]; simp [View.removeIdent, (isKeyOf_iff i k).2 hk]
  certs := fun k c hk hc => by
    rw [h'.ans.hasCertificate]; simp [View.removeIdent, (isCertOfIdent_iff i c).2 ⟨k, hc, hk⟩]
  others := fun j hj => by rw [h'.ans.hasIdentity, h.ans.hasIdentity]; simp [View.removeIdent, upd, hj]
  otherKeys := fun k hk => by
    have : isKeyOf i k = false := by rw [← Bool.not_eq_true, isKeyOf_iff]; exact hk
    rw [h'.ans.getKeyBits, h.ans.getKeyBits]; simp [View.removeIdent, this]
  otherCerts := fun k c hk hc => by
    have : isCertOfIdent i c = false := by
      rw [← Bool.not_eq_true, isCertOfIdent_iff]
      rintro ⟨l, hl, hi⟩; rw [certName_inj hl hc] at hi; exact hk hi
    rw [h'.ans.getCertificate, h.ans.getCertificate]; simp [View.removeIdent, this]

theorem keyGone_of_rep (h : Rep b s v) {k : PName} (h' : Rep b s' v')
    (e1 : v'.ident = v.ident) (e2 : v'.key = (v.removeKey k).key) (e3 : v'.cert = (v.removeKey k).cert) : KeyGone b s s' k where
  self := by rw [h'.ans.hasKey, e2]; simp [View.removeKey, upd]
  certs := fun c hc => by rw [h'.ans.hasCertificate, e3]; simp [View.removeKey, (isCertOf_iff k c).2 hc]
  idents := fun j => by rw [h'.ans.hasIdentity, h.ans.hasIdentity, e1]
  otherKeys := fun l hl => by rw [h'.ans.getKeyBits, h.ans.getKeyBits, e2]; simp [View.removeKey, upd, hl]
  otherCerts := fun c hc => by
    have : isCertOf k c = false := by rw [← Bool.not_eq_true, isCertOf_iff]; exact hc
    rw [h'.ans.getCertificate, h.ans.getCertificate, e3]; simp [View.removeKey, this]

theorem keepIdent (h : Rep b s v) {i : PName} (h' : Rep b s' (v.removeIdent i)) (hd : b.getDefaultIdentity s ≠ .ok i) :
    b.getDefaultIdentity s' = b.getDefaultIdentity s ∧ (∀ j, j ≠ i → b.getDefaultKey s' j = b.getDefaultKey s j) ∧
      ∀ k, ¬ KeyName i k → b.getDefaultCertificate s' k = b.getDefaultCertificate s k := by
  refine ⟨?_, ?_, ?_⟩
  · rw [h'.ans.getDefaultIdentity, h.ans.getDefaultIdentity]
    rw [Ne, h.defIdent] at hd
    simp only [View.removeIdent, dropDefault_ne hd]
  · intro j hj
    rw [h'.ans.getDefaultKey, h.ans.getDefaultKey]
    simp only [View.removeIdent, upd, hj, if_false]
  · intro k hk
    have hk' : isKeyOf i k = false := by rw [← Bool.not_eq_true, isKeyOf_iff]; exact hk
    rw [h'.ans.getDefaultCertificate, h.ans.getDefaultCertificate]
    simp only [View.removeIdent, hk', Bool.false_eq_true, if_false]
    cases hd' : v.defCert k with
    | none => rfl
    | some c =>
      have hc := (h.coh.cert k c hd').2
      have : isCertOfIdent i c = false := by
        rw [← Bool.not_eq_true, isCertOfIdent_iff]
        rintro ⟨l, hl, hi⟩; rw [certName_inj hl hc] at hi; exact hk hi
      simp only [Option.bind_some, this, Bool.false_eq_true, if_false]

theorem keepKey (h : Rep b s v) {i k : PName} (h' : Rep b s' (v.removeKey k)) (hk : KeyName i k)
    (hd : b.getDefaultKey s i ≠ .ok k) :
    b.getDefaultIdentity s' = b.getDefaultIdentity s ∧ (∀ j, b.getDefaultKey s' j = b.getDefaultKey s j) ∧
      ∀ l, l ≠ k → b.getDefaultCertificate s' l = b.getDefaultCertificate s l := by
  refine ⟨?_, ?_, ?_⟩
  · rw [h'.ans.getDefaultIdentity, h.ans.getDefaultIdentity]; rfl
  · intro j
    rw [h'.ans.getDefaultKey, h.ans.getDefaultKey]
    simp only [View.removeKey]
    rw [dropDefault_ne]
    intro e
    have := keyName_inj (h.coh.key _ _ e).2 hk
    subst this
    exact hd ((h.defKey _ _).2 e)
  · intro l hl
    rw [h'.ans.getDefaultCertificate, h.ans.getDefaultCertificate]
    simp only [View.removeKey, upd, hl, if_false]
    cases hd' : v.defCert l with
    | none => rfl
    | some c =>
      have hc := (h.coh.cert l c hd').2
      have : isCertOf k c = false := by
        rw [← Bool.not_eq_true, isCertOf_iff]
        intro e; exact hl (certName_inj hc e)
      simp only [Option.bind_some, this, Bool.false_eq_true, if_false]

theorem keepCert (h : Rep b s v) {k c : PName} (h' : Rep b s' (v.removeCert c)) (hc : CertName k c)
    (hd : ∀ x, b.getDefaultCertificate s k = .ok x → x.name ≠ c) :
    b.getDefaultIdentity s' = b.getDefaultIdentity s ∧ (∀ j, b.getDefaultKey s' j = b.getDefaultKey s j) ∧
      ∀ l, b.getDefaultCertificate s' l = b.getDefaultCertificate s l := by
  refine ⟨?_, ?_, ?_⟩
  · rw [h'.ans.getDefaultIdentity, h.ans.getDefaultIdentity]; rfl
  · intro j
    rw [h'.ans.getDefaultKey, h.ans.getDefaultKey]; rfl
  · intro l
    rw [h'.ans.getDefaultCertificate, h.ans.getDefaultCertificate]
    have hne : ∀ n, v.defCert l = some n → n ≠ c := by
      rintro n e rfl
      have hn := h.coh.cert _ _ e
      have := certName_inj hn.2 hc
      subst this
      obtain ⟨x, hx⟩ := Option.isSome_iff_exists.1 hn.1
      have hxn := h.coh.named _ _ hx
      exact hd x ((h.defCert _ _).2 ⟨by rw [hxn]; exact e, by rw [hxn]; exact hx⟩) hxn
    simp only [View.removeCert]
    cases hd' : v.defCert l with
    | none => rfl
    | some n =>
      have := hne n hd'
      rw [dropDefault_ne (fun e => this (Option.some.inj e))]
      simp only [Option.bind_some, upd, this, if_false]

/-! ## The two back ends -/

theorem sqlite_run (ops : List Op) (hp : ∀ op ∈ ops, Proper op) : ∀ {s : Sql} {v : View}, Sql.Inv s v →
    (run sqlite ops s).1 = (nexts ops v).1 ∧ Sql.Inv (run sqlite ops s).2 (nexts ops v).2 := by
  induction ops with
  | nil => intro s v h; exact ⟨rfl, h⟩
  | cons op ops ih =>
    intro s v h
    have h1 := Sql.step_inv h (hp op (List.mem_cons_self ..))
    have h2 := ih (fun o ho => hp o (List.mem_cons_of_mem _ ho)) h1.2
    exact ⟨by simp only [run, nexts]; rw [h1.1, h2.1], h2.2⟩

theorem Sql.Inv.rep {s : Sql} (h : Sql.Inv s v) : Rep sqlite s v := ⟨Sql.answers h, h.co⟩

theorem memory_run (ops : List Op) (hp : ∀ op ∈ ops, Proper op) : ∀ {s : Mem}, Coherent s.view →
    Coherent (run memory ops s).2.view := by
  induction ops with
  | nil => intro s h; exact h
  | cons op ops ih =>
    intro s h
    have hop := hp op (List.mem_cons_self ..)
    refine ih (fun o ho => hp o (List.mem_cons_of_mem _ ho)) ?_
    rw [(Mem.step_view h hop).2]
    exact Mem.coherent_memNext h hop

theorem memory_init : Mem.view Mem.init = View.empty := by
  ext x <;> simp [Mem.init, Mem.view, View.empty, get]

theorem Mem.rep {s : Mem} (h : Coherent s.view) : Rep memory s s.view := ⟨Mem.answers h, h⟩

theorem Mem.rep_step {s : Mem} (h : Coherent s.view) {op : Op} (hp : Proper op) :
    Rep memory (step memory s op).2 (Mem.memNext s.view op).2 := by
  have hs := Mem.step_view h hp
  have := Mem.rep (s := (step memory s op).2) (by rw [hs.2]; exact Mem.coherent_memNext h hp)
  rw [hs.2] at this
  exact this

theorem memNext_eq {v : View} (hv : Coherent v) {op : Op} (hp : Proper op) (hd : DropsDefault v op) : Mem.memNext v op = next v op := by
  cases op with
  | removeKey k =>
    obtain ⟨i, hi⟩ := hp
    simp only [Mem.memNext, next, (identityOf_iff _ _).2 hi, Option.getD_some]
    rw [Mem.gone_eq hv hi (hd i hi)]
  | _ => rfl

theorem memory_exact (ops : List Op) (hp : ∀ op ∈ ops, Proper op) : ∀ {s : Mem}, Coherent s.view → AllDropDefault ops s.view →
    (run memory ops s).1 = (nexts ops s.view).1 ∧ (run memory ops s).2.view = (nexts ops s.view).2 := by
  induction ops with
  | nil => intro s h _; exact ⟨rfl, rfl⟩
  | cons op ops ih =>
    intro s h hd
    have hop := hp op (List.mem_cons_self ..)
    have h1 := Mem.step_view h hop
    rw [memNext_eq h hop hd.1] at h1
    have h2 := ih (fun o ho => hp o (List.mem_cons_of_mem _ ho)) (s := (step memory s op).2)
      (by rw [h1.2]; exact coherent_next h hop) (by rw [h1.2]; exact hd.2)
    rw [h1.2] at h2
    exact ⟨by simp only [run, nexts]; rw [h1.1, h2.1], h2.2⟩

end Ndn.Pib
