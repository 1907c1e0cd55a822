import Verif.Ndnsec.Session
import Verif.KeyChain.Props
/-
C135 to C137: the commands of `ndnsec` on the SQLite PIB, one process after the other.
-/
namespace Ndn.Ndnsec
open Ndn.Name Ndn.Tlv Ndn.Block Ndn.Packet Ndn.Pib Ndn.Pib.Spec Ndn.KeyChain Ndn.KeyChain.Spec Ndn.Ndnsec.Spec

variable {K : Type} {C : Crypto K}

/-! ## C135 -/

/-- **C135**: each command that is not killed ends, and does to the stored identities, keys, certificates, defaults and private
keys exactly what the specification of the command says. -/
theorem C135_commands_partial (W : Works C) {x : Store K} {e} (h : Reached C sqlite x e) (cmd : Cmd K) (hf : CmdFits C x cmd) :
    ∃ r y, (exec C sqlite e cmd none).1 = some r ∧ CmdStep C x cmd r y ∧ Holds sqlite (exec C sqlite e cmd none).2 y ∧
      Reached C sqlite y (exec C sqlite e cmd none).2 := by
  obtain ⟨y, h1, h2⟩ := reached_step sqlite_faithful W h cmd none hf (fun h => by cases h)
  obtain ⟨r, hr⟩ := exec_none (C := C) (b := sqlite) e cmd
  exact ⟨r, y, hr, h1 r hr, (reached_good sqlite_faithful W h2).1, h2⟩

/-- **C135**: what is reached is what is stored, and nothing else is. -/
theorem C135_stored (W : Works C) {x y : Store K} {e} (h : Reached C sqlite x e) (hy : Holds sqlite e y) (co : Coherent y.v) : y = x := by
  obtain ⟨v, h1, -, rfl⟩ := reached_inv sqlite_faithful W h
  exact store_unique sqlite_faithful h1 hy co

/-- **C135**: the commands that only show or sign something change nothing. -/
theorem C135_reading (W : Works C) {x y : Store K} {e} (h : Reached C sqlite x e) (cmd : Cmd K)
    (hc : (∃ k c i m, cmd = .getDefault k c i m) ∨ (∃ i k n, cmd = .certDump i k n) ∨ (∃ k n v p, cmd = .signReq k n v p) ∨
      ∃ s inf iss nb na p v req, cmd = .certGen s inf iss nb na p v req)
    (hy : Holds sqlite (exec C sqlite e cmd none).2 y) (co : Coherent y.v) : y = x := by
  have hf : CmdFits C x cmd := by
    rcases hc with ⟨_, _, _, _, rfl⟩ | ⟨_, _, _, rfl⟩ | ⟨_, _, _, _, rfl⟩ | ⟨_, _, _, _, _, _, _, _, rfl⟩ <;> trivial
  obtain ⟨r, z, -, h2, -, h4⟩ := C135_commands_partial W h cmd hf
  rw [C135_stored W h4 hy co]
  rcases hc with ⟨_, _, _, _, rfl⟩ | ⟨_, _, _, rfl⟩ | ⟨_, _, _, _, rfl⟩ | ⟨_, _, _, _, _, _, _, _, rfl⟩ <;> exact h2.1

/-- **C135**: after an identity is deleted nothing of it is left: its keys are neither in the PIB nor in the TPM, there is
nothing to sign with or to show. -/
theorem C135_deleted (W : Works C) {x y : Store K} {e} (h : Reached C sqlite x e) {n : PName} (hn : x.v.ident n = true)
    (hy : Holds sqlite (exec C sqlite e (.delete false false n) none).2 y) (co : Coherent y.v) :
    (exec C sqlite e (.delete false false n) none).1 = some (.code 0 .nothing) ∧ y.v.ident n = false ∧ y.v.defIdent ≠ some n ∧
    ∀ k, KeyName n k → y.v.key k = none ∧ ((x.v.key k).isSome → y.priv k = none) ∧ (∀ c, CertName k c → y.v.cert c = none) ∧
      ∀ v p, (exec C sqlite (exec C sqlite e (.delete false false n) none).2 (.signReq true k v p) none).1 = some (.code 1 .nothing) := by
  obtain ⟨r, z, h1, h2, -, h4⟩ := C135_commands_partial W h (.delete false false n) trivial
  rw [C135_stored W h4 hy co]
  simp only [CmdStep, Bool.false_eq_true, and_self, if_false, hn, if_true] at h2
  obtain ⟨hr, hz⟩ := h2
  have hkey : ∀ k, KeyName n k → z.v.key k = none := by
    intro k hk
    rw [hz]
    exact if_pos ((isKeyOf_iff n k).mpr hk)
  refine ⟨by rw [h1, hr], by rw [hz]; exact if_pos rfl, ?_, ?_⟩
  · rw [hz]
    show dropDefault x.v.defIdent n ≠ some n
    unfold dropDefault
    split
    · simp
    · assumption
  · intro k hk
    refine ⟨hkey k hk, ?_, ?_, ?_⟩
    · intro hs; rw [hz]; exact if_pos ⟨hk, hs⟩
    · intro c hc
      cases hcc : z.v.cert c with
      | none => rfl
      | some u =>
        exfalso
        obtain ⟨k', hk', hs⟩ := (reached_good sqlite_faithful W h4).2.1.1.issuer c (by rw [hcc]; rfl)
        have : k' = k := by
          obtain ⟨⟨_, _, e1⟩, -⟩ := hc
          obtain ⟨⟨_, _, e2⟩, -⟩ := hk'
          rw [e1] at e2
          exact ((List.append_inj' e2 rfl).1).symm
        rw [this, hkey k hk] at hs; cases hs
    · intro v p
      obtain ⟨r', z', h1', h2', -, -⟩ := C135_commands_partial W h4 (.signReq true k v p) trivial
      have := h2'.2
      simp only [if_true, hkey k hk] at this
      rw [h1', show r' = .code 1 .nothing from this]

/-! ## C136 -/

/-- **C136**: whatever commands ran, and wherever they were killed, the stored keys are usable: each key of the PIB has a private
key in the TPM that makes signatures its public key verifies, each certificate is for the public key of its key, and each default
exists. -/
theorem C136_usable_partial (W : Works C) {x : Store K} {e} (h : Reached C sqlite x e) :
    Holds sqlite e x ∧ Whole C x ∧ Usable C sqlite (reopen sqlite e) := reached_good sqlite_faithful W h

/-- **C136**: a command killed at any access leaves files from which the next command goes on. -/
theorem C136_killed_partial (W : Works C) {x : Store K} {e} (h : Reached C sqlite x e) (cmd : Cmd K) (hf : CmdFits C x cmd)
    (hd : ¬ DeletesIdent cmd) (j : Nat) :
    ∃ y, Reached C sqlite y (exec C sqlite e cmd (some j)).2 ∧ Holds sqlite (exec C sqlite e cmd (some j)).2 y ∧ Whole C y := by
  obtain ⟨y, -, h2⟩ := reached_step sqlite_faithful W h cmd (some j) hf (fun _ => hd)
  exact ⟨y, h2, (reached_good sqlite_faithful W h2).1, (reached_good sqlite_faithful W h2).2.1⟩

/-! ## C137 -/

private theorem key_kind (W : Works C) {x : Store K} (h : Whole C x) {k : PName} {pub : Bytes} (hp : x.v.key k = some pub) : (C.keyType pub).isSome := by
  obtain ⟨z, -, hm⟩ := h.2.1 k pub hp
  obtain ⟨sig, -, hv⟩ := hm []
  exact W.kind _ _ _ hv

/-- **C137**: the user asks for a certificate for the default key of an identity (`sign-req`), the issuer makes one (`cert-gen`), and
the user installs it (`cert-install`). The request is signed with the user's key, the certificate with the issuer's; it has the
user's public key, and becomes the default certificate of the user. -/
theorem C137_enrollment (W : Works C) {xu xa : Store K} {eu ea} (hu : Reached C sqlite xu eu) (ha : Reached C sqlite xa ea)
    {n k : PName} {pub : Bytes} (hk : xu.v.defKey n = some k) (hp : xu.v.key k = some pub)
    {i ka : PName} {apub : Bytes} (hi : xa.v.defIdent = some i) (hka : xa.v.defKey i = some ka) (hap : xa.v.key ka = some apub)
    {ver : Nat} {val : Raw} (h1 : Encodable C (.reset (certFields k pub ⟨requestComp, ver, 3600000, val⟩)) (certInfo C xu.v k pub [val]))
    {info : Option Raw} {issuer : Comp} {nb : Nat} {na : Option Nat} {period : Nat → Nat → Raw} {ver' : Nat}
    (hr : ¬ Reserved issuer) (hn : ∀ t, na = some t → nb ≤ t)
    (h2 : Encodable C (.reset (certFields k pub ⟨issuer, ver', 3600000, period nb (na.getD (nb + 365 * 86400))⟩))
      (certInfo C xa.v ka apub (withCustom info.toList (period nb (na.getD (nb + 365 * 86400))))))
    (hnew : xu.v.cert (k ++ [issuer, ⟨54, writeNonNegativeInteger ver'⟩]) = none) :
    ∃ d req d' crt,
      (exec C sqlite eu (.signReq false n ver val) none).1 = some (.code 0 (.data d)) ∧ toCert d = some req ∧
      SignedAs (.reset (certFields k pub ⟨requestComp, ver, 3600000, val⟩)) (certInfo C xu.v k pub [val]) (fun u sig => C.verify pub u sig = true) d ∧
      (exec C sqlite ea (.certGen none info issuer nb na period ver' req) none).1 = some (.code 0 (.data d')) ∧ toCert d' = some crt ∧
      SignedAs (.reset (certFields k pub ⟨issuer, ver', 3600000, period nb (na.getD (nb + 365 * 86400))⟩))
        (certInfo C xa.v ka apub (withCustom info.toList (period nb (na.getD (nb + 365 * 86400))))) (fun u sig => C.verify apub u sig = true) d' ∧
      crt.pub = pub ∧ crt.name = k ++ [issuer, ⟨54, writeNonNegativeInteger ver'⟩] ∧
      ∃ e1 e2, e1 = (exec C sqlite eu (.signReq false n ver val) none).2 ∧
        exec C sqlite e1 (.certInstall false false false crt) none = (some (.code 0 .nothing), e2) ∧
        (exec C sqlite e2 (.certDump true false n) none).1 = some (.code 0 (.cert crt)) ∧
        (exec C sqlite e2 (.getDefault false true none none) none).1 = some (.code 0 (.name crt.name)) := by
  have gu := (reached_good sqlite_faithful W hu).2.1
  have ga := (reached_good sqlite_faithful W ha).2.1
  have hkn : KeyName n k := (gu.1.key n k hk).2
  have hpos : (0 : Int) < 3600000 := by decide
  -- the request
  obtain ⟨r1, y1, a1, a2, -, a4⟩ := C135_commands_partial W hu (.signReq false n ver val) trivial
  obtain ⟨rfl, a2⟩ := a2
  simp only [Bool.false_eq_true, if_false, hk] at a2
  obtain ⟨bits, b1, b2, -⟩ := a2
  rw [hp] at b1; cases b1
  obtain ⟨d, rfl, -, hd⟩ := b2 h1
  have hreq := hd
  obtain ⟨sig, w, blk, es, u, hf, -⟩ := hreq
  have hreq := toCert_some (o := ⟨requestComp, ver, 3600000, val⟩) ⟨n, hkn⟩ hpos hf
  generalize hq : (⟨k ++ [requestComp, ⟨54, writeNonNegativeInteger ver⟩], pub, d.wire.getD []⟩ : Crt) = req at hreq
  have hqn : CertName k req.name := by rw [← hq]; exact ⟨⟨_, _, rfl⟩, n, hkn⟩
  have hqp : req.pub = pub := by rw [← hq]
  -- the certificate
  obtain ⟨r2, y2, c1, c2, -, -⟩ := C135_commands_partial W ha (.certGen none info issuer nb na period ver' req) trivial
  obtain ⟨-, c2⟩ := c2
  rw [if_neg (by
    rintro (⟨t, ht, hl⟩ | h)
    · have := hn t ht; omega
    · exact hr h), if_pos ⟨by rw [hqp]; exact key_kind W gu hp, k, hqn⟩] at c2
  obtain ⟨k', hk', c2⟩ := c2
  have hkk : k' = k := by
    obtain ⟨⟨_, _, e1⟩, -⟩ := hqn
    obtain ⟨⟨_, _, e2⟩, -⟩ := hk'
    rw [e1] at e2
    exact ((List.append_inj' e2 rfl).1).symm
  subst hkk
  simp only [hi, Option.bind_some, hka, hqp] at c2
  obtain ⟨bits, b1, b2, -⟩ := c2
  rw [hap] at b1; cases b1
  obtain ⟨d', rfl, -, hd'⟩ := b2 h2
  have hcrt := hd'
  obtain ⟨sig', w', blk', es', u', hf', -⟩ := hcrt
  have hcrt := toCert_some (o := ⟨issuer, ver', 3600000, period nb (na.getD (nb + 365 * 86400))⟩) ⟨n, hkn⟩ hpos hf'
  generalize hq' : (⟨k' ++ [issuer, ⟨54, writeNonNegativeInteger ver'⟩], pub, d'.wire.getD []⟩ : Crt) = crt at hcrt
  have hcn : crt.name = k' ++ [issuer, ⟨54, writeNonNegativeInteger ver'⟩] := by rw [← hq']
  have hcp : crt.pub = pub := by rw [← hq']
  have hcc : CertName k' crt.name := by rw [hcn]; exact ⟨⟨_, _, rfl⟩, n, hkn⟩
  refine ⟨d, req, d', crt, a1, hreq, hd, c1, hcrt, hd', hcp, hcn, _, _, rfl, Prod.ext ?_ rfl, ?_⟩
  all_goals
    have hfit : CmdFits C y1 (.certInstall false false false crt) := by
      refine ⟨k', hcc, ?_⟩
      intro hdc
      have := (gu.1.cert k' _ hdc).1
      rw [hcn, hnew] at this; cases this
    obtain ⟨r3, y3, d1, d2, -, d4⟩ := C135_commands_partial W a4 (.certInstall false false false crt) hfit
    simp only [CmdStep, Bool.false_eq_true, and_self, or_self, if_false] at d2
    obtain ⟨i2, k2, g1, g2, d2⟩ := d2
    have hk2 : k2 = k' := by
      obtain ⟨⟨_, _, e1⟩, -⟩ := hcc
      obtain ⟨⟨_, _, e2⟩, -⟩ := g2
      rw [e1] at e2
      exact ((List.append_inj' e2 rfl).1).symm
    subst hk2
    have hi2 : i2 = n := by
      obtain ⟨_, e1⟩ := g1
      obtain ⟨_, e2⟩ := hkn
      rw [e1] at e2
      exact (List.append_inj' e2 rfl).1
    subst hi2
    rw [if_pos (by rw [hp, hcp])] at d2
    obtain ⟨d2, d3⟩ := d2
  · show (exec C sqlite _ _ none).1 = _
    rw [d1, d2]
  · have hv1 : y3.v.defKey i2 = some k2 := by rw [d3]; exact if_pos rfl
    have hv2 : y3.v.defCert k2 = some crt.name := by rw [d3]; exact if_pos rfl
    have hv3 : y3.v.cert crt.name = some crt := by rw [d3]; exact if_pos rfl
    have hv4 : y3.v.defIdent = some i2 := by rw [d3]; rfl
    constructor
    · obtain ⟨r4, y4, f1, f2, -, -⟩ := C135_commands_partial W d4 (.certDump true false i2) trivial
      have f2 := f2.2
      simp only [Bool.false_eq_true, and_false, if_false, if_true, hv1, Option.bind_some, hv2, hv3] at f2
      rw [f1, show r4 = .code 0 (.cert crt) from f2]
    · obtain ⟨r4, y4, f1, f2, -, -⟩ := C135_commands_partial W d4 (.getDefault false true none none) trivial
      have f2 := f2.2
      simp only [Bool.false_eq_true, Option.isSome_none, and_self, and_true, or_self, if_false, if_true, hv4, Option.bind_some, hv1, hv2] at f2
      rw [f1, show r4 = .code 0 (.name crt.name) from f2]

/-! ## Files for examples -/

private def env (g : UInt8) : Env UInt8 := ⟨g, [5], 1, binaryBlock 253 []⟩
private def idA : PName := [⟨8, [97]⟩]
private def idB : PName := [⟨8, [98]⟩]
private def kA : PName := idA ++ [keyComp, ⟨8, [5]⟩]
private def kB : PName := idB ++ [keyComp, ⟨8, [5]⟩]
private def certA : PName := kA ++ [selfComp, ⟨54, [1]⟩]
private def certB : PName := kB ++ [selfComp, ⟨54, [1]⟩]

/-- `ndnsec key-gen`, with `-n` or without. -/
private def gen (n : PName) (d : Bool) (g : UInt8) : Cmd UInt8 := .keyGen n d 'e' none none (env g)

/-- The files after these commands. -/
private def files (l : List (Cmd UInt8)) : Sql × List (PName × Option UInt8) := l.foldl (fun e cmd => (exec toy sqlite e cmd none).2) (sqlite.init, [])

private theorem gen_fits (n : PName) (d : Bool) (g : UInt8) (hg : toy.isHmac g = false) (x : Store UInt8) : CmdFits toy x (gen n d g) := by
  intro id h
  cases h with
  | default _ => exact ⟨(fun h => by rw [show (env g).gen = g from rfl, hg] at h; cases h), (fun _ h => by cases h)⟩

private theorem reached_files (l : List (Cmd UInt8)) (h : ∀ cmd ∈ l, ∀ x, CmdFits toy x cmd) : ∃ x, Reached toy sqlite x (files l) := by
  have : ∀ (l : List (Cmd UInt8)) (x) (e : Sql × List (PName × Option UInt8)), (∀ cmd ∈ l, ∀ x, CmdFits toy x cmd) → Reached toy sqlite x e →
      ∃ y, Reached toy sqlite y (l.foldl (fun e cmd => (exec toy sqlite e cmd none).2) e) := by
    intro l
    induction l with
    | nil => intro x e _ hr; exact ⟨x, hr⟩
    | cons cmd l ih =>
      intro x e hl hr
      obtain ⟨r, y, -, -, -, hy⟩ := C135_commands_partial toy_works hr cmd (hl cmd (List.mem_cons_self ..) x)
      exact ih y _ (fun c hc => hl c (List.mem_cons_of_mem _ hc)) hy
  exact this l _ _ h .start

private theorem defIdent_of {e : Sql × List (PName × Option UInt8)} {x : Store UInt8} (h : Holds sqlite e x) {r : Option PName}
    (hr : sqlite.getDefaultIdentity e.1 = match r with | some i => .ok i | none => .refused) : x.v.defIdent = r := by
  have := h.pib.getDefaultIdentity.symm.trans hr
  cases h1 : x.v.defIdent <;> cases r <;> rw [h1] at this <;> simp_all

/-! ## What the help texts say otherwise -/

/-- `key-gen -n`: "do not set the identity as default". -/
def C135_not_default_claim : Prop := ∀ (K : Type) (C : Crypto K), Works C → ∀ x e, Reached C sqlite x e → ∀ n t kt kid env y,
  CmdFits C x (.keyGen n true t kt kid env) → Holds sqlite (exec C sqlite e (.keyGen n true t kt kid env) none).2 y → Coherent y.v →
  y.v.defIdent = x.v.defIdent

/-- `ndnsec key-gen -n` makes the identity the default if there is no default identity. -/
theorem C135_not_default_counterexample : ¬ C135_not_default_claim := by
  intro h
  obtain ⟨r, y, -, -, h1, h2⟩ := C135_commands_partial toy_works (.start) (gen idA true 7) (gen_fits _ _ _ (by decide) _)
  have h3 := h UInt8 toy toy_works _ _ .start idA 'e' none none (env 7) y (gen_fits _ true _ (by decide) _) h1 (reached_good sqlite_faithful toy_works h2).2.1.1
  rw [defIdent_of (r := some idA) h1 (by decide +kernel)] at h3
  cases h3

/-- `set-default -c`: "set default certificate of the key". -/
def C135_set_default_claim : Prop := ∀ (K : Type) (C : Crypto K), Works C → ∀ x e, Reached C sqlite x e → ∀ c y,
  Holds sqlite (exec C sqlite e (.setDefault false true c) none).2 y → Coherent y.v → y.v.defIdent = x.v.defIdent

/-- After the default identity was deleted, `ndnsec set-default -c` also makes the identity of the certificate the default. -/
theorem C135_set_default_counterexample : ¬ C135_set_default_claim := by
  intro h
  obtain ⟨x, hx⟩ := reached_files [gen idA false 7, gen idB true 8, .delete false false idA] (by
    intro c hc x
    simp only [List.mem_cons, List.not_mem_nil, or_false] at hc
    rcases hc with rfl | rfl | rfl
    · exact gen_fits _ _ _ (by decide) _
    · exact gen_fits _ _ _ (by decide) _
    · trivial)
  obtain ⟨r, y, -, -, h1, h2⟩ := C135_commands_partial toy_works hx (.setDefault false true certB) trivial
  have h3 := h UInt8 toy toy_works _ _ hx certB y h1 (reached_good sqlite_faithful toy_works h2).2.1.1
  rw [defIdent_of (r := some idB) h1 (by decide +kernel), defIdent_of (r := none) (reached_good sqlite_faithful toy_works hx).1 (by decide +kernel)] at h3
  cases h3

/-- `cert-install -N`: "install the certificate but do not change any default settings". -/
def C135_no_default_claim : Prop := ∀ (K : Type) (C : Crypto K), Works C → ∀ x e, Reached C sqlite x e → ∀ c y,
  CmdFits C x (.certInstall false false true c) → Holds sqlite (exec C sqlite e (.certInstall false false true c) none).2 y → Coherent y.v →
  y.v.defIdent = x.v.defIdent

/-- `ndnsec cert-install -N` makes the identity the default if there is no default identity. -/
theorem C135_no_default_counterexample : ¬ C135_no_default_claim := by
  intro h
  obtain ⟨x, hx⟩ := reached_files [gen idA false 7, gen idB true 8, .delete false false idA] (by
    intro c hc x
    simp only [List.mem_cons, List.not_mem_nil, or_false] at hc
    rcases hc with rfl | rfl | rfl
    · exact gen_fits _ _ _ (by decide) _
    · exact gen_fits _ _ _ (by decide) _
    · trivial)
  have gx := (reached_good sqlite_faithful toy_works hx)
  have hf : CmdFits toy x (.certInstall false false true ⟨kB ++ [⟨8, [67]⟩, ⟨54, [2]⟩], [8], []⟩) := by
    refine ⟨kB, ⟨⟨_, _, rfl⟩, idB, _, rfl⟩, ?_⟩
    intro hd
    have h1 := gx.2.1.1.cert kB _ hd
    have h2 := gx.1.pib.getCertificate (kB ++ [⟨8, [67]⟩, ⟨54, [2]⟩])
    rw [show sqlite.getCertificate (files _).1 (kB ++ [⟨8, [67]⟩, ⟨54, [2]⟩]) = .refused by decide +kernel] at h2
    cases h3 : x.v.cert (kB ++ [⟨8, [67]⟩, ⟨54, [2]⟩]) with
    | none => rw [h3] at h1; cases h1.1
    | some c => rw [h3] at h2; cases h2
  obtain ⟨r, y, -, -, h1, h2⟩ := C135_commands_partial toy_works hx _ hf
  have h3 := h UInt8 toy toy_works _ _ hx _ y hf h1 (reached_good sqlite_faithful toy_works h2).2.1.1
  rw [defIdent_of (r := some idB) h1 (by decide +kernel), defIdent_of (r := none) gx.1 (by decide +kernel)] at h3
  cases h3

/-! ## C136 does not hold for the deletion of an identity -/

def C136_claim : Prop := ∀ (K : Type) (C : Crypto K), Works C → ∀ x e, Reached C sqlite x e → ∀ cmd, CmdFits C x cmd → ∀ cut,
  Usable C sqlite (reopen sqlite (exec C sqlite e cmd cut).2)

/-- `ndnsec delete` of an identity, killed after the first private key is removed, leaves a key that cannot sign. -/
theorem C136_counterexample : ¬ C136_claim := by
  intro h
  obtain ⟨x, hx⟩ := reached_files [gen idA false 7] (by
    intro c hc x
    simp only [List.mem_cons, List.not_mem_nil, or_false] at hc
    subst hc
    exact gen_fits _ _ _ (by decide) _)
  have hk : ∃ e ∈ (run toy sqlite (files [gen idA false 7]) (.delete false false idA)).2.trail,
    sqlite.getKeyBits e.1 kA = .ok [7] ∧ get kA e.2 = none := by decide +kernel
  obtain ⟨e, he, hk⟩ := hk
  obtain ⟨j, hj⟩ := List.getElem?_of_mem (List.mem_cons_of_mem (files [gen idA false 7]) (List.mem_reverse.mpr he))
  have hu := h UInt8 toy toy_works x _ hx (.delete false false idA) trivial (some j)
  have hc : exec toy sqlite (files [gen idA false 7]) (.delete false false idA) (some j) = (none, e) := by
    unfold exec
    dsimp only [Option.bind_some]
    rw [hj]
  rw [hc] at hu
  obtain ⟨sig, h1, -⟩ := hu.sign kA [7] hk.1 []
  have h2 : (tpmSign toy [] kA .sha256 (reopen sqlite e)).1 = .ok none := by
    unfold tpmSign
    have hf : (tpmFind kA : KM _ UInt8 (Option UInt8)) (reopen sqlite e) = (.ok none, reopen sqlite e) := by
      unfold tpmFind
      rw [show (reopen sqlite e).tpm.cache = [] from rfl, show (reopen sqlite e).tpm.keys = e.2 from rfl, hk.2]
      rfl
    rw [bind_ok hf]
    rfl
  rw [h1] at h2
  injection h2 with h2; cases h2

/-! ## C137: what `cert-gen` does not do -/

/-- What `cert-gen` makes is signed with a key. -/
def C137_signed_claim : Prop := ∀ (K : Type) (C : Crypto K), Works C → ∀ x e, Reached C sqlite x e → ∀ s inf iss nb na p v req d,
  (exec C sqlite e (.certGen s inf iss nb na p v req) none).1 = some (.code 0 (.data d)) → d.f.sigInfo.type ≠ some 0

/-- The packet of a result. -/
private def dataOf : Option Exit → Option DObj
  | some (.code 0 (.data d)) => some d
  | _ => none

private theorem dataOf_some {r : Option Exit} {d : DObj} (h : dataOf r = some d) : r = some (.code 0 (.data d)) := by
  match r, h with
  | some (.code 0 (.data d)), h => injection h with h; subst h; rfl

private def issueA (req : Crt) : Cmd UInt8 := .certGen none none ⟨8, [73]⟩ 0 none (fun _ _ => binaryBlock 253 []) 2 req

/-- Without a default identity `ndnsec cert-gen` makes a certificate that has a digest in place of a signature. -/
theorem C137_signed_counterexample : ¬ C137_signed_claim := by
  intro h
  have h1 : ((dataOf (exec toy sqlite (sqlite.init, []) (issueA ⟨certA, [7], []⟩) none).1).map (fun d => d.f.sigInfo.type)) = some (some 0) := by decide +kernel
  cases h2 : dataOf (exec toy sqlite (sqlite.init, []) (issueA ⟨certA, [7], []⟩) none).1 with
  | none => rw [h2] at h1; cases h1
  | some d =>
    rw [h2] at h1
    exact h UInt8 toy toy_works _ _ .start _ _ _ _ _ _ _ _ d (dataOf_some h2) (Option.some.inj h1)

/-- A request is accepted only with a signature that verifies with the public key in it. -/
def C137_request_claim : Prop := ∀ (K : Type) (C : Crypto K), Works C → ∀ x e, Reached C sqlite x e → ∀ s inf iss nb na p v q req d,
  toCert q = some req → (exec C sqlite e (.certGen s inf iss nb na p v req) none).1 = some (.code 0 (.data d)) →
  ∃ u sig, q.f.encodeUnsigned = some u ∧ q.f.sigValue = some (binaryBlock 23 sig) ∧ C.verify req.pub u sig = true

/-- A request for the key `[7]` with a wrong signature. -/
private def forged : DObj := .reset { certFields kA [7] ⟨requestComp, 1, 3600000, binaryBlock 253 []⟩ with
  sigInfo := ⟨some 3, some (.name certA), [binaryBlock 253 []]⟩, sigValue := some (binaryBlock 23 [0, 0, 0]) }

/-- `ndnsec cert-gen` does not look at the signature of the request. -/
theorem C137_request_counterexample : ¬ C137_request_claim := by
  intro h
  obtain ⟨x, hx⟩ := reached_files [gen idB false 8] (by
    intro c hc x
    simp only [List.mem_cons, List.not_mem_nil, or_false] at hc
    subst hc
    exact gen_fits _ _ _ (by decide) _)
  obtain ⟨req, hq, hr⟩ : ∃ req, toCert forged = some req ∧ (dataOf (exec toy sqlite (files [gen idB false 8]) (issueA req) none).1).isSome = true ∧ req.pub = [7] :=
    ⟨_, rfl, by decide +kernel, rfl⟩
  obtain ⟨d, hd⟩ := Option.isSome_iff_exists.mp hr.1
  obtain ⟨u, sig, -, h2, h3⟩ := h UInt8 toy toy_works _ _ hx _ _ _ _ _ _ _ forged req d hq (dataOf_some hd)
  have h2 : some (binaryBlock 23 [0, 0, 0]) = some (binaryBlock 23 sig) := h2
  have : sig = [0, 0, 0] := by
    injection h2 with h2
    have := congrArg Raw.value h2
    exact this.symm
  subst this
  rw [hr.2] at h3
  simp [toy] at h3

/-! ## Examples -/

/-- A certificate of `toy` with short names can be encoded. -/
private theorem cert_encodable (k l : PName) (o : CertOpts) (g : UInt8) (kl : Bytes) (hf : o.freshness = 3600000)
    (hn : Ndn.Packet.Spec.NameWF (k ++ [o.issuer, ⟨54, writeNonNegativeInteger o.version⟩])) (hl : Ndn.Packet.Spec.NameWF l)
    (h1 : (KeyLoc.name l).encode = some kl) (h2 : kl.length < 100)
    (h3 : ∃ z, { certFields k [g] o with
      sigInfo := ⟨some 3, some (.name l), [binaryBlock 253 []]⟩, sigValue := some (binaryBlock 23 [0, 0, 0]) : DFields }.encode.map List.length = some z ∧ z < 1000) :
    Encodable toy (.reset (certFields k [g] o)) ⟨some 3, some (.name l), [binaryBlock 253 []]⟩ := by
  obtain ⟨z, hz, hz2⟩ := h3
  have hsize : ∀ w, { certFields k [g] o with
      sigInfo := ⟨some 3, some (.name l), [binaryBlock 253 []]⟩, sigValue := some (binaryBlock 23 [0, 0, 0]) : DFields }.encode = some w → w.length < 1000 := by
    intro w hw
    rw [hw] at hz
    injection hz with hz
    omega
  intro sig hsig
  have hlen : sig.length ≤ 3 := by
    rcases hsig with ⟨x, a, m, h⟩ | ⟨m, rfl⟩
    · injection h with h; subst h; simp
    · simp [toy]
  refine wf_sig (f := { certFields k [g] o with
      sigInfo := ⟨some 3, some (.name l), [binaryBlock 253 []]⟩, sigValue := some (binaryBlock 23 [0, 0, 0]) }) (sig0 := [0, 0, 0]) ?_ rfl hlen (by decide) hsize (fun h => by cases h)
  refine ⟨hn, ?_, ?_, ?_, ⟨_, rfl, binaryBlock_wf (by decide) (by decide) (by decide), rfl⟩, fun w hw => by have := hsize w hw; omega⟩
  · show Ndn.Packet.Spec.MetaWF { MetaInfo.init with type := 2, freshness := o.freshness.toNat }
    rw [hf]
    exact ⟨by decide, by decide, (by intro c hc; cases hc), (by intro b hb; cases hb), by decide⟩
  · intro c hc
    injection hc with hc; subst hc
    exact ⟨binaryBlock_wf (by decide) (by decide) (by simp), rfl⟩
  · refine ⟨⟨3, rfl, by decide⟩, ?_, ?_, ?_⟩
    · intro k hk; injection hk with hk; subst hk; exact hl
    · intro b hb
      simp only [List.mem_cons, List.not_mem_nil, or_false] at hb
      subst hb
      exact ⟨binaryBlock_wf (by decide) (by decide) (by decide), by decide, by decide, (fun h => by cases h), .inl rfl⟩
    · intro t w hw
      have hw : w = tlvBytes t (nniTlv 27 3 ++ kl ++ ([binaryBlock 253 []].map Raw.wire).flatten) := by
        simp only [SigInfo.encode, h1] at hw
        exact (Option.some.inj hw).symm
      rw [hw, tlvBytes_length]
      have h5 : ∀ n, (writeVarNumber n).length ≤ 9 := by
        intro n; rw [writeVarNumber_length]; unfold sizeOfVarNumber; (repeat' split) <;> omega
      have := h5 t
      have h6 : (nniTlv 27 3).length = 3 := by decide
      have h7 : (([binaryBlock 253 []] : List Raw).map Raw.wire).flatten.length = 4 := by decide
      have := h5 (nniTlv 27 3 ++ kl ++ (([binaryBlock 253 []] : List Raw).map Raw.wire).flatten).length
      have : (nniTlv 27 3 ++ kl ++ (([binaryBlock 253 []] : List Raw).map Raw.wire).flatten).length = 7 + kl.length := by
        rw [List.length_append, List.length_append, h6, h7]; omega
      omega

private theorem key_of {e : Sql × List (PName × Option UInt8)} {x : Store UInt8} (h : Holds sqlite e x) {k : PName} {bits : Bytes}
    (hr : sqlite.getKeyBits e.1 k = .ok bits) : x.v.key k = some bits := by
  have := (h.pib.getKeyBits k).symm.trans hr
  cases h1 : x.v.key k <;> rw [h1] at this <;> simp_all

private theorem defKey_of {e : Sql × List (PName × Option UInt8)} {x : Store UInt8} (h : Holds sqlite e x) {i k : PName}
    (hr : sqlite.getDefaultKey e.1 i = .ok k) : x.v.defKey i = some k := by
  have := (h.pib.getDefaultKey i).symm.trans hr
  cases h1 : x.v.defKey i <;> rw [h1] at this <;> simp_all

private theorem defCert_of {e : Sql × List (PName × Option UInt8)} {x : Store UInt8} (h : Holds sqlite e x) (co : Coherent x.v) {k c : PName}
    (hr : (match sqlite.getDefaultCertificate e.1 k with | .ok z => some z.name | _ => none) = some c) : x.v.defCert k = some c := by
  rw [h.pib.getDefaultCertificate k] at hr
  cases h1 : x.v.defCert k with
  | none => rw [h1] at hr; cases hr
  | some c' =>
    obtain ⟨z, hz⟩ := Option.isSome_iff_exists.mp (co.cert k c' h1).1
    rw [h1] at hr
    simp only [Option.bind_some, hz, Option.some.injEq] at hr
    rw [← hr, co.named c' z hz]

private theorem cert_of {e : Sql × List (PName × Option UInt8)} {x : Store UInt8} (h : Holds sqlite e x) {c : PName}
    (hr : sqlite.getCertificate e.1 c = .refused) : x.v.cert c = none := by
  have := (h.pib.getCertificate c).symm.trans hr
  cases h1 : x.v.cert c <;> rw [h1] at this <;> simp_all

/-- Files with a key and a default certificate are reached. -/
private theorem user_reached (n : PName) (g : UInt8) (hg : toy.isHmac g = false) : ∃ x, Reached toy sqlite x (files [gen n false g]) :=
  reached_files _ (by
    intro c hc x
    simp only [List.mem_cons, List.not_mem_nil, or_false] at hc
    subst hc
    exact gen_fits _ _ _ hg _)

private def requestOpts : CertOpts := ⟨requestComp, 2, 3600000, binaryBlock 253 []⟩
private def issueOpts : CertOpts := ⟨⟨8, [73]⟩, 2, 3600000, binaryBlock 253 []⟩

/-- The hypotheses of `C137_enrollment` are met by the files of two users after `key-gen`. -/
example : ∃ xu xa, Reached toy sqlite xu (files [gen idA false 7]) ∧ Reached toy sqlite xa (files [gen idB false 8]) ∧
    xu.v.defKey idA = some kA ∧ xu.v.key kA = some [7] ∧ xa.v.defIdent = some idB ∧ xa.v.defKey idB = some kB ∧ xa.v.key kB = some [8] ∧
    Encodable toy (.reset (certFields kA [7] requestOpts)) (certInfo toy xu.v kA [7] [binaryBlock 253 []]) ∧ ¬ Reserved (⟨8, [73]⟩ : Comp) ∧
    Encodable toy (.reset (certFields kA [7] issueOpts)) (certInfo toy xa.v kB [8] (withCustom [] (binaryBlock 253 []))) ∧
    xu.v.cert (kA ++ [⟨8, [73]⟩, ⟨54, writeNonNegativeInteger 2⟩]) = none := by
  obtain ⟨xu, hu⟩ := user_reached idA 7 (by decide)
  obtain ⟨xa, ha⟩ := user_reached idB 8 (by decide)
  have gu := reached_good sqlite_faithful toy_works hu
  have ga := reached_good sqlite_faithful toy_works ha
  have e1 : certInfo toy xu.v kA [7] [binaryBlock 253 []] = ⟨some 3, some (.name certA), [binaryBlock 253 []]⟩ := by
    unfold certInfo locator
    rw [defCert_of (c := certA) gu.1 gu.2.1.1 (by decide +kernel)]; rfl
  have e2 : certInfo toy xa.v kB [8] (withCustom [] (binaryBlock 253 [])) = ⟨some 3, some (.name certB), [binaryBlock 253 []]⟩ := by
    unfold certInfo locator
    rw [defCert_of (c := certB) ga.1 ga.2.1.1 (by decide +kernel)]; rfl
  refine ⟨xu, xa, hu, ha, defKey_of gu.1 (by decide +kernel), key_of gu.1 (by decide +kernel), defIdent_of (r := some idB) ga.1 (by decide +kernel),
    defKey_of ga.1 (by decide +kernel), key_of ga.1 (by decide +kernel), ?_, (by rintro (⟨h | h, -⟩ | h) <;> cases h), ?_, cert_of gu.1 (by decide +kernel)⟩
  · rw [e1]
    exact cert_encodable kA certA requestOpts 7 _ rfl (by unfold Ndn.Packet.Spec.NameWF; decide) (by unfold Ndn.Packet.Spec.NameWF; decide) rfl (by decide) ⟨_, rfl, by decide⟩
  · rw [e2]
    exact cert_encodable kA certB issueOpts 7 _ rfl (by unfold Ndn.Packet.Spec.NameWF; decide) (by unfold Ndn.Packet.Spec.NameWF; decide) rfl (by decide) ⟨_, rfl, by decide⟩

/-- Exit codes of some commands: two keys, the second not as default; a default shown; a deletion; the same again. -/
example : ((exec toy sqlite (files [gen idA false 7, gen idB true 8]) (.getDefault false true none none) none).1,
    (exec toy sqlite (files [gen idA false 7, gen idB true 8]) (.getDefault true false (some idB) none) none).1,
    (exec toy sqlite (files [gen idA false 7, gen idB true 8]) (.delete true false kB) none).1,
    (exec toy sqlite (files [gen idA false 7, gen idB true 8, .delete true false kB]) (.delete true false kB) none).1) =
  (some (.code 0 (.name certA)), some (.code 0 (.name kB)), some (.code 0 .nothing), some (.code 1 .nothing)) := by decide +kernel

/-- `key-gen` makes many accesses to the files at each of which it may be killed. -/
example : 6 ≤ (run toy sqlite (files [gen idA false 7]) (gen idB false 8)).2.trail.length := by decide +kernel

end Ndn.Ndnsec
