import Verif.KeyChain.Export
import Verif.KeyChain.Props
/-
Property C105: a key exported with its certificate can be imported into another key chain.
-/
namespace Ndn.KeyChain
open Ndn.Name Ndn.Tlv Ndn.Block Ndn.Packet Ndn.Packet.Spec Ndn.Pib Ndn.Pib.Spec Ndn.KeyChain.Spec

variable {σ K : Type} {b : Backend σ} {R : σ → View → Prop} {A : View → PName → Prop} {C : Crypto K}

/-- The private keys that go with a public key can be written, and read again with the same password. -/
def Saves (C : Crypto K) (save : K → Bytes → Option Bytes) (pw : Bytes) : Prop :=
  ∀ x bits, Match C x bits → ∃ enc, save x pw = some enc ∧ C.load enc pw = some x

/-- Exporting changes nothing and gives the private key stored under the name of the key, or an error of the key chain
if there is none. -/
theorem C105_export (save : K → Bytes → Option Bytes) (c : Crt) (pw : Bytes) (s : St σ K) :
    (exportSafeBag save c pw s).2 = s ∧
    (∀ c' enc, (exportSafeBag save c pw s).1 = .ok (c', enc) ↔
      c' = c ∧ ∃ x, get c.keyName s.tpm.keys = some (some x) ∧ save x pw = some enc) ∧
    (get c.keyName s.tpm.keys = none → (exportSafeBag save c pw s).1 = .error .chain) := by
  unfold exportSafeBag
  show ((_ : KM σ K (Crt × Bytes)) s).2 = s ∧ _
  cases h : get c.keyName s.tpm.keys with
  | none =>
    have e : rethrowTpm (tpmExport save c.keyName pw) s = ((.error .chain : Except Err Bytes), s) := by
      unfold rethrowTpm tpmExport; rw [h]
    refine ⟨?_, fun c' enc => ?_, fun _ => ?_⟩
    · simp only [bind, e]
    · simp only [bind, e]; simp
    · simp only [bind, e]
  | some o =>
    cases o with
    | none =>
      have e : rethrowTpm (tpmExport save c.keyName pw) s = ((.error .ub : Except Err Bytes), s) := by
        unfold rethrowTpm tpmExport; rw [h]
      refine ⟨?_, fun c' enc => ?_, fun h => by cases h⟩
      · simp only [bind, e]
      · simp only [bind, e]; simp
    | some x =>
      cases hx : save x pw with
      | none =>
        have e : rethrowTpm (tpmExport save c.keyName pw) s = ((.error .crypto : Except Err Bytes), s) := by
          unfold rethrowTpm tpmExport; rw [h]; simp only [hx]
        refine ⟨?_, fun c' enc => ?_, fun h => by cases h⟩
        · simp only [bind, e]
        · simp only [bind, e]; simp [hx]
      | some enc0 =>
        have e : rethrowTpm (tpmExport save c.keyName pw) s = ((.ok enc0 : Except Err Bytes), s) := by
          unfold rethrowTpm tpmExport; rw [h]; simp only [hx]
        refine ⟨?_, fun c' enc => ?_, fun h => by cases h⟩
        · simp only [bind, e, pure]
        · simp only [bind, e, pure]
          simp only [Except.ok.injEq, Prod.mk.injEq, Option.some.injEq]
          constructor
          · rintro ⟨rfl, rfl⟩; exact ⟨rfl, x, rfl, hx⟩
          · rintro ⟨rfl, y, rfl, hy⟩; rw [hx] at hy; injection hy with hy; exact ⟨rfl, hy⟩

/-- A certificate of the first key chain can be exported, and after any history of a second one that has no private key
of this name it can be imported there: both store then the same certificate, public key and private key. -/
def Transfers (C : Crypto K) (save : K → Bytes → Option Bytes) (b : Backend σ) (P : KWorld K → KOp K → Prop) (pw : Bytes)
    (s1 : St σ K) (kw1 : KWorld K) : Prop :=
  ∀ c k, CertName k c.name → kw1.pib.v.cert c.name = some c →
    ∃ enc, exportSafeBag save c pw s1 = (.ok (c, enc), s1) ∧
      ∀ ops, Follows C b P (fun _ _ _ s2 kw2 => kw2.priv k = none → ∀ msg,
        ∃ kw3, (kop C b (.importSafeBag c enc pw msg) { s2 with trail := [] }).1 = .ok .done ∧
          Stores b kw3 (kop C b (.importSafeBag c enc pw msg) { s2 with trail := [] }).2 ∧ Consistent C kw3 ∧
          kw3.pib.v.cert c.name = some c ∧ kw3.pib.v.key k = kw1.pib.v.key k ∧ (kw1.pib.v.key k).isSome ∧
          kw3.priv k = kw1.priv k ∧ (kw1.priv k).isSome ∧
          (∀ n, n ≠ k → kw3.priv n = kw2.priv n) ∧ Extended kw2 kw3) KWorld.init (St.init b) ops

private theorem grows_import {v : View} {c : Crt} {k : PName} (hkn : c.keyName = k) (hn : v.key k = none) :
    Grows v (((withIdent v c.identity).addKey c.identity k c.pub).addCert c) := by
  have hn' : (withIdent v c.identity).key k = none := by
    unfold withIdent; split
    · exact hn
    · exact hn
  refine (Grows.withIdent v c.identity).trans ((Grows.addKey _ _ _ _ (.inl hn')).trans (.addCert _ _ ?_))
  rw [hkn]; simp [View.addKey, upd]

private theorem transfer (F : Faithful b R A) (W : Works C) {P : KWorld K → KOp K → Prop} (hP : ∀ kw op, P kw op → KFitsA C A kw op)
    {save : K → Bytes → Option Bytes} {pw : Bytes} (hsv : Saves C save pw) {s1 : St σ K} {w1 : World}
    (inv1 : Inv C w1 s1.tpm) : Transfers C save b P pw s1 (kwOf w1 s1.tpm) := by
  intro c k hk hc
  have hkn : c.keyName = k := crt_keyName hk
  have hpub := (consistent_of inv1).2 c.name c hc
  rw [hkn] at hpub
  obtain ⟨x, hx, hm⟩ := (consistent_of inv1).1 k c.pub hpub
  obtain ⟨enc, h1, h2⟩ := hsv x c.pub hm
  have hx' : get k s1.tpm.keys = some (some x) := hx
  obtain ⟨e1, e2, -⟩ := C105_export save c pw s1
  refine ⟨enc, Prod.ext ((e2 c enc).2 ⟨rfl, x, by rw [hkn]; exact hx', h1⟩) e1, fun ops => ?_⟩
  refine follows F W hP ?_ ops (s := St.init b) (start_sim F) Inv.init
  intro s w op r hs inv hp s2 w2 hs2 inv2 hk2 ht hn msg
  have ts : TestSound C c enc pw msg := by
    intro y sig hy _ _
    rw [h2] at hy
    injection hy with hy
    exact hy ▸ hm
  have hf : KFitsA C A (kwOf w2 s2.tpm) (.importSafeBag c enc pw msg) := ⟨⟨⟨k, hk⟩, ts⟩, fun _ _ _ e => by cases e⟩
  obtain ⟨w3, g1, ⟨g2, g3⟩, -⟩ := good (s := { s2 with trail := [] }) F W hs2 inv2 (.importSafeBag c enc pw msg) hf
  obtain ⟨sig, hsig, hver⟩ := hm msg
  obtain ⟨k', hk', g2⟩ := g2
  have := certName_inj hk' hk; subst this
  rw [if_pos ⟨hn, x, sig, h2, hsig, hver⟩] at g2
  obtain ⟨y, hy, r1, r2, r3, r4, r5⟩ := g2
  rw [h2] at hy
  injection hy with hy
  subst hy
  refine ⟨kwOf w3 _, r1, stores_of F g1, consistent_of g3, ?_, ?_, ?_, ?_, ?_, ?_, ?_⟩
  · rw [r4]; simp [View.addCert, upd]
  · rw [r4, hpub]; simp [View.addCert, View.addKey, upd]
  · rw [hpub]; rfl
  · rw [r5, hx]; simp [upd]
  · rw [hx]; rfl
  · intro n hne; rw [r5]; simp [upd, hne]
  · refine ⟨?_, r2, ?_⟩
    · rw [r4]; exact grows_import hkn r3
    · intro n z hz
      rw [r5]
      by_cases hne : n = k'
      · subst hne
        rw [show (kwOf w2 s2.tpm).priv n = none from hn] at hz
        cases hz
      · simp only [upd, hne, if_false]; exact hz

private theorem fitsAny (kw : KWorld K) (op : KOp K) (h : KFits C kw op) : KFitsA C (fun _ _ => True) kw op := ⟨h, fun _ _ _ _ _ => trivial⟩

private theorem fitsMem (kw : KWorld K) (op : KOp K) (h : KFitsMemory C kw op) : KFitsA C (fun v k => DropsDefault v (.removeKey k)) kw op :=
  ⟨h.1, fun x k n e hn => by subst e; exact h.2 n hn⟩

/-- **C105** over `pib-sqlite3`: after every call of a history, each certificate can be transferred. The part left out are
the calls ruled out by `KFits`. -/
theorem C105_sqlite_partial (W : Works C) {save : K → Bytes → Option Bytes} {pw : Bytes} (hsv : Saves C save pw) (ops : List (KOp K)) :
    Follows C sqlite (KFits C) (fun _ _ _ s kw => Stores sqlite kw s ∧ Transfers C save sqlite (KFits C) pw s kw)
      KWorld.init (St.init sqlite) ops :=
  follows sqlite_faithful W fitsAny
    (fun _ _ _ _ _ _ _ _ _ hs' inv' _ _ => ⟨stores_of sqlite_faithful hs', transfer sqlite_faithful W fitsAny hsv inv'⟩) ops
    (s := St.init sqlite) (start_sim sqlite_faithful) Inv.init

/-- **C105** over `pib-memory`. -/
theorem C105_memory_partial (W : Works C) {save : K → Bytes → Option Bytes} {pw : Bytes} (hsv : Saves C save pw) (ops : List (KOp K)) :
    Follows C memory (KFitsMemory C) (fun _ _ _ s kw => Stores memory kw s ∧ Transfers C save memory (KFitsMemory C) pw s kw)
      KWorld.init (St.init memory) ops :=
  follows memory_faithful W fitsMem
    (fun _ _ _ _ _ _ _ _ _ hs' inv' _ _ => ⟨stores_of memory_faithful hs', transfer memory_faithful W fitsMem hsv inv'⟩) ops
    (s := St.init memory) (start_sim memory_faithful) Inv.init

/-- The keys of the example are written as they are, if the password is the right one. -/
private def toySave (x : UInt8) (pw : Bytes) : Option Bytes := if pw = [1] then some [x] else none

example : Saves toy toySave [1] := fun x _ _ => ⟨[x], rfl, rfl⟩

/-- A key made by one key chain, exported and imported by another. -/
example : ∃ c enc, (exportSafeBag toySave c [1] (krun toy sqlite [.createIdentity [⟨8, [97]⟩] .random ⟨7, [5], 1, binaryBlock 253 []⟩] (St.init sqlite)).2).1 = .ok (c, enc) ∧
    (krun toy sqlite [.importSafeBag c enc [1] [9, 9]] (St.init sqlite)).1 = [.ok .done] ∧
    (tpmSign toy [3] c.keyName .sha256 (krun toy sqlite [.importSafeBag c enc [1] [9, 9]] (St.init sqlite)).2).1 = .ok (some [7, 1, 0]) :=
  ⟨⟨[⟨8, [97]⟩, keyComp, ⟨8, [5]⟩, selfComp, ⟨54, [1]⟩], [7], []⟩, [7], rfl, rfl, rfl⟩

/-- The full claim: what a key chain stores can be transferred after every history. -/
def C105_claim {σ : Type} (b : Backend σ) : Prop :=
  ∀ (K : Type) (C : Crypto K), Works C → ∀ save pw, Saves C save pw → ∀ ops c enc,
    b.getCertificate (krun C b ops (St.init b)).2.pib.db c.name = .ok c →
    (exportSafeBag save c pw (krun C b ops (St.init b)).2).1 = .ok (c, enc) →
    ∀ msg, (krun C b [.importSafeBag c enc pw msg] (St.init b)).1 = [.ok .done]

/-- A certificate for another public key, made default, can be exported but the bag cannot be imported. -/
theorem C105_counterexample : ¬ C105_claim sqlite := by
  intro h
  have := h UInt8 toy toy_works toySave [1] (fun x _ _ => ⟨[x], rfl, rfl⟩)
    [.createIdentity [⟨8, [97]⟩] .random ⟨7, [5], 1, binaryBlock 253 []⟩,
      .setDefaultCertificate 1 ⟨[⟨8, [97]⟩, keyComp, ⟨8, [5]⟩, ⟨8, [120]⟩, ⟨54, [2]⟩], [8], []⟩]
    ⟨[⟨8, [97]⟩, keyComp, ⟨8, [5]⟩, ⟨8, [120]⟩, ⟨54, [2]⟩], [8], []⟩ [7] (by decide +kernel) (by rfl) []
  have e := congrArg (List.map (fun r : Except Err KRes => match r with | .ok _ => true | .error _ => false)) this
  revert e
  decide +kernel

end Ndn.KeyChain
