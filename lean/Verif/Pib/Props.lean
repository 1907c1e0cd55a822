import Verif.Pib.Back
/-
C57: the Public Information Base. The two back ends, `pib-memory` and `pib-sqlite3`.
-/
namespace Ndn.Pib
open Ndn.Name Spec

private def nm (s : List UInt8) : PName := s.map (fun c => ⟨8, [c]⟩)
private def idA : PName := nm [97]
private def idB : PName := nm [98]
private def kA1 : PName := idA ++ [keyComp, ⟨8, [1]⟩]
private def kA2 : PName := idA ++ [keyComp, ⟨8, [2]⟩]
private def kB1 : PName := idB ++ [keyComp, ⟨8, [1]⟩]
private def crtOf (k : PName) (v : UInt8) (pub : Bytes) : Crt := ⟨k ++ [⟨8, [115]⟩, ⟨54, [v]⟩], pub, []⟩

private theorem kA1_name : KeyName idA kA1 := ⟨_, rfl⟩
private theorem kA2_name : KeyName idA kA2 := ⟨_, rfl⟩
private theorem kB1_name : KeyName idB kB1 := ⟨_, rfl⟩
private theorem crt_name {i k : PName} (h : KeyName i k) (v : UInt8) (pub : Bytes) : CertName k (crtOf k v pub).name :=
  ⟨⟨_, _, rfl⟩, i, h⟩

private def sample : List Op :=
  [.addCertificate (crtOf kA1 1 [7]), .addKey idA kA2 [8], .addCertificate (crtOf kB1 1 [9]), .setDefaultIdentity idB,
   .addCertificate (crtOf kA1 2 [7])]

private theorem sample_proper : ∀ op ∈ sample, Proper op := by
  intro op h
  simp only [sample, List.mem_cons, List.not_mem_nil, or_false] at h
  rcases h with rfl | rfl | rfl | rfl | rfl
  · exact ⟨_, crt_name kA1_name _ _⟩
  · exact kA2_name
  · exact ⟨_, crt_name kB1_name _ _⟩
  · trivial
  · exact ⟨_, crt_name kA1_name _ _⟩

/-! ## The SQLite back end -/

/-- **C57**, `pib-sqlite3`: any sequence of calls on a new PIB is answered as specified, and afterwards every query
answers as specified. -/
theorem C57_sqlite_exact (ops : List Op) (hp : ∀ op ∈ ops, Proper op) :
    (run sqlite ops sqlite.init).1 = (nexts ops View.empty).1 ∧
      Answers sqlite (run sqlite ops sqlite.init).2 (nexts ops View.empty).2 := by
  have h := sqlite_run ops hp Sql.inv_init
  exact ⟨h.1, h.2.rep.ans⟩

/-- **C57**, `pib-sqlite3`: after any sequence of calls the default identity, key and certificate exist and belong to
their parents, and every key and certificate has its parent. -/
theorem C57_sqlite_defaults (ops : List Op) (hp : ∀ op ∈ ops, Proper op) : Sound sqlite (run sqlite ops sqlite.init).2 :=
  (sqlite_run ops hp Sql.inv_init).2.rep.sound

/-- **C57**, `pib-sqlite3`: removing an identity removes its keys and their certificates, and nothing else. -/
theorem C57_sqlite_remove_identity (ops : List Op) (hp : ∀ op ∈ ops, Proper op) (i : PName) :
    Gone sqlite (run sqlite ops sqlite.init).2 (step sqlite (run sqlite ops sqlite.init).2 (.removeIdentity i)).2 i := by
  have h : Sql.Inv (run sqlite ops sqlite.init).2 _ := (sqlite_run ops hp Sql.inv_init).2
  exact gone_of_rep h.rep (Sql.step_inv h (op := .removeIdentity i) trivial).2.rep

/-- **C57**, `pib-sqlite3`: removing a key removes its certificates, and nothing else. -/
theorem C57_sqlite_remove_key (ops : List Op) (hp : ∀ op ∈ ops, Proper op) {i k : PName} (hk : KeyName i k) :
    KeyGone sqlite (run sqlite ops sqlite.init).2 (step sqlite (run sqlite ops sqlite.init).2 (.removeKey k)).2 k := by
  have h : Sql.Inv (run sqlite ops sqlite.init).2 _ := (sqlite_run ops hp Sql.inv_init).2
  exact keyGone_of_rep h.rep (Sql.step_inv h (op := .removeKey k) ⟨i, hk⟩).2.rep rfl rfl rfl

/-- **C57**, `pib-sqlite3`: removing what is not the default leaves the defaults as they are: an identity, -/
theorem C57_sqlite_keep_identity (ops : List Op) (hp : ∀ op ∈ ops, Proper op) (i : PName)
    (hd : sqlite.getDefaultIdentity (run sqlite ops sqlite.init).2 ≠ .ok i) :
    let s := (run sqlite ops sqlite.init).2
    let s' := (step sqlite s (.removeIdentity i)).2
    sqlite.getDefaultIdentity s' = sqlite.getDefaultIdentity s ∧
      (∀ j, j ≠ i → sqlite.getDefaultKey s' j = sqlite.getDefaultKey s j) ∧
      ∀ k, ¬ KeyName i k → sqlite.getDefaultCertificate s' k = sqlite.getDefaultCertificate s k := by
  have h : Sql.Inv (run sqlite ops sqlite.init).2 _ := (sqlite_run ops hp Sql.inv_init).2
  exact keepIdent h.rep (Sql.step_inv h (op := .removeIdentity i) trivial).2.rep hd

/-- a key that is not the default of its identity, -/
theorem C57_sqlite_keep_key (ops : List Op) (hp : ∀ op ∈ ops, Proper op) {i k : PName} (hk : KeyName i k)
    (hd : sqlite.getDefaultKey (run sqlite ops sqlite.init).2 i ≠ .ok k) :
    let s := (run sqlite ops sqlite.init).2
    let s' := (step sqlite s (.removeKey k)).2
    sqlite.getDefaultIdentity s' = sqlite.getDefaultIdentity s ∧
      (∀ j, sqlite.getDefaultKey s' j = sqlite.getDefaultKey s j) ∧
      ∀ l, l ≠ k → sqlite.getDefaultCertificate s' l = sqlite.getDefaultCertificate s l := by
  have h : Sql.Inv (run sqlite ops sqlite.init).2 _ := (sqlite_run ops hp Sql.inv_init).2
  exact keepKey h.rep (Sql.step_inv h (op := .removeKey k) ⟨i, hk⟩).2.rep hk hd

/-- a certificate that is not the default of its key. -/
theorem C57_sqlite_keep_certificate (ops : List Op) (hp : ∀ op ∈ ops, Proper op) {k c : PName} (hc : CertName k c)
    (hd : ∀ x, sqlite.getDefaultCertificate (run sqlite ops sqlite.init).2 k = .ok x → x.name ≠ c) :
    let s := (run sqlite ops sqlite.init).2
    let s' := (step sqlite s (.removeCertificate c)).2
    sqlite.getDefaultIdentity s' = sqlite.getDefaultIdentity s ∧
      (∀ j, sqlite.getDefaultKey s' j = sqlite.getDefaultKey s j) ∧
      ∀ l, sqlite.getDefaultCertificate s' l = sqlite.getDefaultCertificate s l := by
  have h : Sql.Inv (run sqlite ops sqlite.init).2 _ := (sqlite_run ops hp Sql.inv_init).2
  exact keepCert h.rep (Sql.step_inv h (op := .removeCertificate c) ⟨k, hc⟩).2.rep hc hd

/-! ## The back end in memory -/

/-- **C57**, `pib-memory`: after any sequence of calls the defaults exist and belong to their parents, and every key and
certificate has its parent. -/
theorem C57_memory_defaults (ops : List Op) (hp : ∀ op ∈ ops, Proper op) : Sound memory (run memory ops memory.init).2 :=
  (Mem.rep (memory_run ops hp (s := Mem.init) (by rw [memory_init]; exact coherent_empty))).sound

/-- **C57**, `pib-memory`: removing an identity removes its keys and their certificates, and nothing else. -/
theorem C57_memory_remove_identity (ops : List Op) (hp : ∀ op ∈ ops, Proper op) (i : PName) :
    (step memory (run memory ops memory.init).2 (.removeIdentity i)).1 = .ok () ∧
    Gone memory (run memory ops memory.init).2 (step memory (run memory ops memory.init).2 (.removeIdentity i)).2 i := by
  have h := memory_run ops hp (s := Mem.init) (by rw [memory_init]; exact coherent_empty)
  exact ⟨(Mem.step_view h (op := .removeIdentity i) trivial).1,
    gone_of_rep (Mem.rep h) (Mem.rep_step h (op := .removeIdentity i) trivial)⟩

/-- **C57**, `pib-memory`: removing a key removes its certificates and no other key or certificate. -/
theorem C57_memory_remove_key (ops : List Op) (hp : ∀ op ∈ ops, Proper op) {i k : PName} (hk : KeyName i k) :
    (step memory (run memory ops memory.init).2 (.removeKey k)).1 = .ok () ∧
    KeyGone memory (run memory ops memory.init).2 (step memory (run memory ops memory.init).2 (.removeKey k)).2 k := by
  have h := memory_run ops hp (s := Mem.init) (by rw [memory_init]; exact coherent_empty)
  exact ⟨(Mem.step_view h (op := .removeKey k) ⟨i, hk⟩).1,
    keyGone_of_rep (Mem.rep h) (Mem.rep_step h (op := .removeKey k) ⟨i, hk⟩) rfl rfl rfl⟩

/-- **C57**, `pib-memory`: removing an identity that is not the default leaves the defaults as they are, -/
theorem C57_memory_keep_identity (ops : List Op) (hp : ∀ op ∈ ops, Proper op) (i : PName)
    (hd : memory.getDefaultIdentity (run memory ops memory.init).2 ≠ .ok i) :
    let s := (run memory ops memory.init).2
    let s' := (step memory s (.removeIdentity i)).2
    memory.getDefaultIdentity s' = memory.getDefaultIdentity s ∧
      (∀ j, j ≠ i → memory.getDefaultKey s' j = memory.getDefaultKey s j) ∧
      ∀ k, ¬ KeyName i k → memory.getDefaultCertificate s' k = memory.getDefaultCertificate s k := by
  have h : Coherent (run memory ops memory.init).2.view :=
    memory_run ops hp (s := Mem.init) (by rw [memory_init]; exact coherent_empty)
  exact keepIdent (Mem.rep h) (Mem.rep_step h (op := .removeIdentity i) trivial) hd

/-- and so does removing a certificate that is not the default. -/
theorem C57_memory_keep_certificate (ops : List Op) (hp : ∀ op ∈ ops, Proper op) {k c : PName} (hc : CertName k c)
    (hd : ∀ x, memory.getDefaultCertificate (run memory ops memory.init).2 k = .ok x → x.name ≠ c) :
    let s := (run memory ops memory.init).2
    let s' := (step memory s (.removeCertificate c)).2
    memory.getDefaultIdentity s' = memory.getDefaultIdentity s ∧
      (∀ j, memory.getDefaultKey s' j = memory.getDefaultKey s j) ∧
      ∀ l, memory.getDefaultCertificate s' l = memory.getDefaultCertificate s l := by
  have h : Coherent (run memory ops memory.init).2.view :=
    memory_run ops hp (s := Mem.init) (by rw [memory_init]; exact coherent_empty)
  exact keepCert (Mem.rep h) (Mem.rep_step h (op := .removeCertificate c) ⟨k, hc⟩) hc hd

/-- **C57**, `pib-memory`, in full: any sequence of calls is answered as specified. False. -/
def C57_memory_exact_claim : Prop :=
  ∀ ops : List Op, (∀ op ∈ ops, Proper op) → Answers memory (run memory ops memory.init).2 (nexts ops View.empty).2

/-- Removing a key that is not the default leaves the identity without a default key. -/
theorem C57_memory_counterexample : ¬ C57_memory_exact_claim := by
  intro h
  have := h [.addKey idA kA1 [7], .addKey idA kA2 [8], .removeKey kA2] (by
    intro op hop
    simp only [List.mem_cons, List.not_mem_nil, or_false] at hop
    rcases hop with rfl | rfl | rfl
    · exact kA1_name
    · exact kA2_name
    · exact ⟨_, kA2_name⟩)
  have := this.getDefaultKey idA
  revert this
  decide +kernel

/-- The same, seen by the caller: with two keys, removing the one that is not the default makes the look-up of the
default key fail although the default key is still there. -/
theorem C57_memory_default_lost_counterexample :
    let s := (run memory [.addKey idA kA1 [7], .addKey idA kA2 [8]] memory.init).2
    let s' := (step memory s (.removeKey kA2)).2
    memory.getDefaultKey s idA = .ok kA1 ∧ memory.getDefaultKey s' idA = .refused ∧ memory.hasKey s' kA1 = true := by
  decide +kernel

/-- **C57**, `pib-memory`: where each key removed is the default one of its identity, or there is none, any sequence of
calls is answered as specified. -/
theorem C57_memory_exact_partial (ops : List Op) (hp : ∀ op ∈ ops, Proper op) (hd : AllDropDefault ops View.empty) :
    (run memory ops memory.init).1 = (nexts ops View.empty).1 ∧
      Answers memory (run memory ops memory.init).2 (nexts ops View.empty).2 := by
  have h0 : Coherent (Mem.view Mem.init) := by rw [memory_init]; exact coherent_empty
  have h := memory_exact ops hp (s := Mem.init) h0 (by rw [memory_init]; exact hd)
  rw [memory_init] at h
  refine ⟨h.1, ?_⟩
  have := Mem.answers (memory_run ops hp h0)
  rw [h.2] at this
  exact this

/-! ## Calls a back end does not check

`Pib`, `Identity` and `Key` check the names they pass on; the back ends do not. -/

/-- `pib-memory` takes the key of another identity as the default key. -/
theorem C57_memory_foreign_key_counterexample :
    let s := (run memory [.addKey idA kA1 [7], .addKey idB kB1 [9], .setDefaultKey idA kB1] memory.init).2
    memory.getDefaultKey s idA = .ok kB1 ∧ ¬ KeyName idA kB1 := by
  refine ⟨by decide +kernel, ?_⟩
  rw [← identityOf_iff]
  decide +kernel

/-- `pib-sqlite3` then changes the default of the other identity, and does not set that of the identity given. -/
theorem C57_sqlite_foreign_key_counterexample :
    let s := (run sqlite [.addKey idA kA1 [7], .addKey idA kA2 [8], .addIdentity idB] sqlite.init).2
    let r := step sqlite s (.setDefaultKey idB kA2)
    r.1 = .ok () ∧ sqlite.getDefaultKey s idA = .ok kA1 ∧ sqlite.getDefaultKey r.2 idA = .ok kA2 ∧
      sqlite.getDefaultKey r.2 idB = .refused := by
  decide +kernel

/-! ## Examples -/

example : ∀ op ∈ sample ++ [.removeIdentity idA], Proper op := by
  intro op h
  rcases List.mem_append.1 h with h | h
  · exact sample_proper op h
  · rw [List.mem_singleton] at h; subst h; trivial

example : let s := (run sqlite sample sqlite.init).2
    sqlite.getDefaultIdentity s = .ok idB ∧ sqlite.getDefaultKey s idA = .ok kA1 ∧ sqlite.getDefaultKey s idA ≠ .ok kA2 ∧
      sqlite.getDefaultCertificate s kA1 = .ok (crtOf kA1 1 [7]) ∧ sqlite.getDefaultIdentity s ≠ .ok idA ∧
      sqlite.hasKey s kA2 = true := by
  decide +kernel

example : ∀ x, sqlite.getDefaultCertificate (run sqlite sample sqlite.init).2 kA1 = .ok x → x.name ≠ (crtOf kA1 2 [7]).name := by
  have : sqlite.getDefaultCertificate (run sqlite sample sqlite.init).2 kA1 = .ok (crtOf kA1 1 [7]) := by decide +kernel
  intro x h
  rw [this] at h
  injection h with h
  subst h
  decide +kernel

example : let s := (step sqlite (run sqlite sample sqlite.init).2 (.removeIdentity idA)).2
    sqlite.hasKey s kA1 = false ∧ sqlite.hasCertificate s (crtOf kA1 1 [7]).name = false ∧ sqlite.hasKey s kB1 = true := by
  decide +kernel

example : let s := (run memory (sample ++ [.removeIdentity idB]) memory.init).2
    memory.getDefaultIdentity s = .refused ∧ memory.getDefaultKey s idA = .ok kA1 ∧ memory.hasKey s kB1 = false := by
  decide +kernel

example : AllDropDefault [.addKey idA kA1 [7], .addKey idA kA2 [8], .removeKey kA1, .removeKey kA2] View.empty := by
  refine ⟨trivial, trivial, fun i hi => ?_, fun i hi => ?_, trivial⟩
  · have := keyName_inj hi kA1_name
    subst this; right; decide +kernel
  · have := keyName_inj hi kA2_name
    subst this; left; decide +kernel

end Ndn.Pib
