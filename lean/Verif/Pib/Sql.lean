import Verif.Pib.Lemmas
namespace Ndn.Pib
open Ndn.Name Spec

theorem le_foldl_max : ∀ (l : List Nat) (a : Nat), a ≤ l.foldl max a ∧ ∀ x ∈ l, x ≤ l.foldl max a
  | [], a => by simp
  | y :: l, a => by
    obtain ⟨h1, h2⟩ := le_foldl_max l (max a y)
    simp only [List.foldl_cons, List.mem_cons]
    refine ⟨by omega, ?_⟩
    rintro x (rfl | hx)
    · omega
    · exact h2 x hx

theorem newId_fresh (l : List Nat) : ∀ x ∈ l, x ≠ newId l := by
  intro x hx
  have := (le_foldl_max l 0).2 x hx
  unfold newId
  omega

namespace Sql

/-- The tables hold what the view says, rows are identified by their name and by their id, and refer to rows. -/
structure Inv (s : Sql) (v : View) : Prop where
  co : Coherent v
  idName : ∀ r ∈ s.ids, ∀ q ∈ s.ids, r.name = q.name → r = q
  idId : ∀ r ∈ s.ids, ∀ q ∈ s.ids, r.id = q.id → r = q
  keyName : ∀ r ∈ s.keys, ∀ q ∈ s.keys, r.name = q.name → r = q
  keyId : ∀ r ∈ s.keys, ∀ q ∈ s.keys, r.id = q.id → r = q
  certName : ∀ r ∈ s.certs, ∀ q ∈ s.certs, r.name = q.name → r = q
  keyRef : ∀ r ∈ s.keys, ∃ q ∈ s.ids, q.id = r.identity ∧ KeyName q.name r.name
  certRef : ∀ r ∈ s.certs, ∃ q ∈ s.keys, q.id = r.key ∧ CertName q.name r.name
  ident : ∀ n, v.ident n = true ↔ ∃ r ∈ s.ids, r.name = n
  defIdent : ∀ n, v.defIdent = some n ↔ ∃ r ∈ s.ids, r.name = n ∧ r.dflt = true
  key : ∀ k b, v.key k = some b ↔ ∃ r ∈ s.keys, r.name = k ∧ r.bits = b
  defKey : ∀ i k, v.defKey i = some k ↔ ∃ r ∈ s.keys, r.name = k ∧ r.dflt = true ∧ KeyName i k
  cert : ∀ c x, v.cert c = some x ↔ ∃ r ∈ s.certs, r.name = c ∧ r.crt = x
  defCert : ∀ k c, v.defCert k = some c ↔ ∃ r ∈ s.certs, r.name = c ∧ r.dflt = true ∧ CertName k c

theorem inv_init : Inv Sql.init View.empty := by
  constructor
  · exact coherent_empty
  all_goals simp [Sql.init, View.empty]

/-! ## Reading -/

theorem find_name {α : Type} {name : α → PName} {rows : List α} (n : PName) (r : α)
    (hu : ∀ r ∈ rows, ∀ q ∈ rows, name r = name q → r = q) :
    rows.find? (fun r => decide (name r = n)) = some r ↔ r ∈ rows ∧ name r = n := by
  constructor
  · intro h
    exact ⟨List.mem_of_find?_eq_some h, by simpa using List.find?_some h⟩
  · rintro ⟨hr, hn⟩
    cases h : rows.find? (fun r => decide (name r = n)) with
    | none => rw [List.find?_eq_none] at h; exact absurd hn (by simpa using h r hr)
    | some q =>
      have hq := List.mem_of_find?_eq_some h
      have hqn : name q = n := by simpa using List.find?_some h
      rw [hu q hq r hr (hqn.trans hn.symm)]

variable {s : Sql} {v : View}

theorem Inv.idRow_iff (h : Inv s v) (n : PName) (r : IdRow) : s.idRow n = some r ↔ r ∈ s.ids ∧ r.name = n :=
  find_name n r h.idName

theorem Inv.keyRow_iff (h : Inv s v) (n : PName) (r : KeyRow) : s.keyRow n = some r ↔ r ∈ s.keys ∧ r.name = n :=
  find_name n r h.keyName

theorem Inv.certRow_iff (h : Inv s v) (n : PName) (r : CertRow) : s.certRow n = some r ↔ r ∈ s.certs ∧ r.name = n :=
  find_name n r h.certName

theorem bool_ext {a b : Bool} (h : a = true ↔ b = true) : a = b := by
  cases a <;> cases b <;> simp_all

theorem Inv.hasIdentity (h : Inv s v) (n : PName) : s.hasIdentity n = v.ident n := by
  apply bool_ext
  rw [h.ident, Sql.hasIdentity, Option.isSome_iff_exists]
  simp only [h.idRow_iff]

theorem isSome_ext {α β : Type} {a : Option α} {b : Option β} (h : (∃ x, a = some x) ↔ ∃ x, b = some x) : a.isSome = b.isSome := by
  apply bool_ext
  rw [Option.isSome_iff_exists, Option.isSome_iff_exists]; exact h

theorem Inv.hasKey (h : Inv s v) (n : PName) : s.hasKey n = (v.key n).isSome := by
  apply isSome_ext
  simp only [h.keyRow_iff, h.key]
  constructor
  · rintro ⟨r, hr⟩; exact ⟨r.bits, r, hr.1, hr.2, rfl⟩
  · rintro ⟨_, r, hr⟩; exact ⟨r, hr.1, hr.2.1⟩

theorem Inv.hasCertificate (h : Inv s v) (n : PName) : s.hasCertificate n = (v.cert n).isSome := by
  apply isSome_ext
  simp only [h.certRow_iff, h.cert]
  constructor
  · rintro ⟨r, hr⟩; exact ⟨r.crt, r, hr.1, hr.2, rfl⟩
  · rintro ⟨_, r, hr⟩; exact ⟨r, hr.1, hr.2.1⟩

theorem Inv.mem_keysJoin (h : Inv s v) (i : PName) (r : KeyRow) : r ∈ s.keysJoin i ↔ r ∈ s.keys ∧ KeyName i r.name := by
  unfold keysJoin
  rw [List.mem_filter]
  constructor
  · rintro ⟨hr, ha⟩
    refine ⟨hr, ?_⟩
    simp only [List.any_eq_true, Bool.and_eq_true, decide_eq_true_eq] at ha
    obtain ⟨q, hq, hid, hn⟩ := ha
    obtain ⟨q', hq', hid', hk⟩ := h.keyRef r hr
    rw [h.idId q hq q' hq' (hid.trans hid'.symm)] at hn
    rw [← hn]; exact hk
  · rintro ⟨hr, hk⟩
    refine ⟨hr, ?_⟩
    simp only [List.any_eq_true, Bool.and_eq_true, decide_eq_true_eq]
    obtain ⟨q, hq, hid, hk'⟩ := h.keyRef r hr
    exact ⟨q, hq, hid, keyName_inj hk' hk⟩

theorem Inv.mem_certsJoin (h : Inv s v) (k : PName) (r : CertRow) : r ∈ s.certsJoin k ↔ r ∈ s.certs ∧ CertName k r.name := by
  unfold certsJoin
  rw [List.mem_filter]
  constructor
  · rintro ⟨hr, ha⟩
    refine ⟨hr, ?_⟩
    simp only [List.any_eq_true, Bool.and_eq_true, decide_eq_true_eq] at ha
    obtain ⟨q, hq, hid, hn⟩ := ha
    obtain ⟨q', hq', hid', hk⟩ := h.certRef r hr
    rw [h.keyId q hq q' hq' (hid.trans hid'.symm)] at hn
    rw [← hn]; exact hk
  · rintro ⟨hr, hk⟩
    refine ⟨hr, ?_⟩
    simp only [List.any_eq_true, Bool.and_eq_true, decide_eq_true_eq]
    obtain ⟨q, hq, hid, hk'⟩ := h.certRef r hr
    exact ⟨q, hq, hid, certName_inj hk' hk⟩

theorem Inv.hasDefaultIdentity (h : Inv s v) : s.hasDefaultIdentity = v.defIdent.isSome := by
  apply bool_ext
  rw [Option.isSome_iff_exists, Sql.hasDefaultIdentity, List.any_eq_true]
  simp only [h.defIdent]
  constructor
  · rintro ⟨r, hr, hd⟩; exact ⟨r.name, r, hr, rfl, hd⟩
  · rintro ⟨_, r, hr, _, hd⟩; exact ⟨r, hr, hd⟩

theorem Inv.hasDefaultKey (h : Inv s v) (i : PName) : s.hasDefaultKey i = (v.defKey i).isSome := by
  apply bool_ext
  rw [Option.isSome_iff_exists, Sql.hasDefaultKey, List.any_eq_true]
  simp only [h.defKey, h.mem_keysJoin]
  constructor
  · rintro ⟨r, hr, hd⟩; exact ⟨r.name, r, hr.1, rfl, hd, hr.2⟩
  · rintro ⟨_, r, hr, rfl, hd, hk⟩; exact ⟨r, ⟨hr, hk⟩, hd⟩

theorem Inv.hasDefaultCertificate (h : Inv s v) (k : PName) : s.hasDefaultCertificate k = (v.defCert k).isSome := by
  apply bool_ext
  rw [Option.isSome_iff_exists, Sql.hasDefaultCertificate, List.any_eq_true]
  simp only [h.defCert, h.mem_certsJoin]
  constructor
  · rintro ⟨r, hr, hd⟩; exact ⟨r.name, r, hr.1, rfl, hd, hr.2⟩
  · rintro ⟨_, r, hr, rfl, hd, hk⟩; exact ⟨r, ⟨hr, hk⟩, hd⟩

theorem answers (h : Inv s v) : Answers sqlite s v where
  hasIdentity := h.hasIdentity
  getIdentities := fun i => by
    rw [h.ident]; simp [sqlite]
  getDefaultIdentity := by
    simp only [sqlite, Sql.getDefaultIdentity]
    cases hf : s.ids.find? (·.dflt) with
    | none =>
      rw [List.find?_eq_none] at hf
      cases hd : v.defIdent with
      | none => rfl
      | some n =>
        obtain ⟨r, hr, _, hrd⟩ := (h.defIdent n).1 hd
        exact absurd hrd (hf r hr)
    | some r =>
      rw [(h.defIdent r.name).2 ⟨r, List.mem_of_find?_eq_some hf, rfl, List.find?_some hf⟩]
  hasKey := h.hasKey
  getKeyBits := fun k => by
    simp only [sqlite, Sql.getKeyBits]
    cases hf : s.keyRow k with
    | none =>
      cases hd : v.key k with
      | none => rfl
      | some b =>
        obtain ⟨r, hr, hn, _⟩ := (h.key k b).1 hd
        rw [(h.keyRow_iff k r).2 ⟨hr, hn⟩] at hf; cases hf
    | some r =>
      have := (h.keyRow_iff k r).1 hf
      rw [(h.key k r.bits).2 ⟨r, this.1, this.2, rfl⟩]
  getKeysOfIdentity := fun i => by
    refine ⟨_, rfl, fun k => ?_⟩
    simp only [List.mem_map, h.mem_keysJoin]
    rw [Option.isSome_iff_exists]
    simp only [h.key]
    constructor
    · rintro ⟨r, ⟨hr, hk⟩, rfl⟩; exact ⟨⟨_, r, hr, rfl, rfl⟩, hk⟩
    · rintro ⟨⟨_, r, hr, rfl, _⟩, hk⟩; exact ⟨r, ⟨hr, hk⟩, rfl⟩
  getDefaultKey := fun i => by
    simp only [sqlite, Sql.getDefaultKey]
    cases hf : (s.keysJoin i).find? (·.dflt) with
    | none =>
      rw [List.find?_eq_none] at hf
      cases hd : v.defKey i with
      | none => rfl
      | some n =>
        obtain ⟨r, hr, rfl, hrd, hk⟩ := (h.defKey i n).1 hd
        exact absurd hrd (hf r ((h.mem_keysJoin i r).2 ⟨hr, hk⟩))
    | some r =>
      have := (h.mem_keysJoin i r).1 (List.mem_of_find?_eq_some hf)
      rw [(h.defKey i r.name).2 ⟨r, this.1, rfl, List.find?_some hf, this.2⟩]
  hasCertificate := h.hasCertificate
  getCertificate := fun k => by
    simp only [sqlite, Sql.getCertificate]
    cases hf : s.certRow k with
    | none =>
      cases hd : v.cert k with
      | none => rfl
      | some b =>
        obtain ⟨r, hr, hn, _⟩ := (h.cert k b).1 hd
        rw [(h.certRow_iff k r).2 ⟨hr, hn⟩] at hf; cases hf
    | some r =>
      have := (h.certRow_iff k r).1 hf
      rw [(h.cert k r.crt).2 ⟨r, this.1, this.2, rfl⟩]
  getCertificatesOfKey := fun i => by
    refine ⟨_, rfl, fun k => ?_⟩
    simp only [List.mem_map, h.mem_certsJoin]
    rw [Option.isSome_iff_exists]
    simp only [h.cert]
    constructor
    · rintro ⟨r, ⟨hr, hk⟩, rfl⟩; exact ⟨⟨_, r, hr, rfl, rfl⟩, hk⟩
    · rintro ⟨⟨_, r, hr, rfl, _⟩, hk⟩; exact ⟨r, ⟨hr, hk⟩, rfl⟩
  getDefaultCertificate := fun k => by
    simp only [sqlite, Sql.getDefaultCertificate]
    cases hf : (s.certsJoin k).find? (·.dflt) with
    | none =>
      rw [List.find?_eq_none] at hf
      cases hd : v.defCert k with
      | none => rfl
      | some n =>
        obtain ⟨r, hr, rfl, hrd, hk⟩ := (h.defCert k n).1 hd
        exact absurd hrd (hf r ((h.mem_certsJoin k r).2 ⟨hr, hk⟩))
    | some r =>
      have := (h.mem_certsJoin k r).1 (List.mem_of_find?_eq_some hf)
      rw [(h.defCert k r.name).2 ⟨r, this.1, rfl, List.find?_some hf, this.2⟩]
      simp only [Option.bind_some]
      rw [(h.cert r.name r.crt).2 ⟨r, this.1, rfl, rfl⟩]

/-! ## Marking a default -/

theorem mem_markIdent {rows : List IdRow} (hu : ∀ r ∈ rows, ∀ q ∈ rows, r.name = q.name → r = q)
    (hd : ∀ r ∈ rows, ∀ q ∈ rows, r.dflt = true → q.dflt = true → r.name = q.name) {n : PName} (hn : ∃ r ∈ rows, r.name = n) (q : IdRow) :
    q ∈ markIdent n rows ↔ ∃ r ∈ rows, q = { r with dflt := decide (r.name = n) } := by
  obtain ⟨r0, h0, rfl⟩ := hn
  unfold markIdent
  simp only [(find_name (name := IdRow.name) r0.name r0 hu).2 ⟨h0, rfl⟩]
  split
  · rename_i hdf
    have key : ∀ r ∈ rows, r = { r with dflt := decide (r.name = r0.name) } := by
      intro r hr
      by_cases e : r.name = r0.name
      · have := hu r hr r0 h0 e
        subst this
        rw [decide_eq_true (rfl : r.name = r.name), ← hdf]
      · have hf : r.dflt = false := by
          cases hb : r.dflt with
          | false => rfl
          | true => exact absurd (hd r hr r0 h0 hb hdf) e
        rw [decide_eq_false e, ← hf]
    constructor
    · intro hq; exact ⟨q, hq, key q hq⟩
    · rintro ⟨r, hr, rfl⟩; rw [← key r hr]; exact hr
  · simp [eq_comm]

theorem mem_markKey {rows : List KeyRow} (hu : ∀ r ∈ rows, ∀ q ∈ rows, r.name = q.name → r = q)
    (hd : ∀ r ∈ rows, ∀ q ∈ rows, r.dflt = true → q.dflt = true → r.identity = q.identity → r.name = q.name) {r0 : KeyRow} (h0 : r0 ∈ rows) (q : KeyRow) :
    q ∈ markKey r0.name rows ↔ ∃ r ∈ rows, q = if r.identity = r0.identity then { r with dflt := decide (r.name = r0.name) } else r := by
  unfold markKey
  simp only [(find_name (name := KeyRow.name) r0.name r0 hu).2 ⟨h0, rfl⟩]
  split
  · rename_i hdf
    have key : ∀ r ∈ rows, r = if r.identity = r0.identity then { r with dflt := decide (r.name = r0.name) } else r := by
      intro r hr
      split
      · rename_i hg
        by_cases e : r.name = r0.name
        · have := hu r hr r0 h0 e
          subst this
          rw [decide_eq_true (rfl : r.name = r.name), ← hdf]
        · have hf : r.dflt = false := by
            cases hb : r.dflt with
            | false => rfl
            | true => exact absurd (hd r hr r0 h0 hb hdf hg) e
          rw [decide_eq_false e, ← hf]
      · rfl
    constructor
    · intro hq; exact ⟨q, hq, key q hq⟩
    · rintro ⟨r, hr, rfl⟩; rw [← key r hr]; exact hr
  · simp [eq_comm]

theorem mem_markCert {rows : List CertRow} (hu : ∀ r ∈ rows, ∀ q ∈ rows, r.name = q.name → r = q)
    (hd : ∀ r ∈ rows, ∀ q ∈ rows, r.dflt = true → q.dflt = true → r.key = q.key → r.name = q.name) {r0 : CertRow} (h0 : r0 ∈ rows) (q : CertRow) :
    q ∈ markCert r0.name rows ↔ ∃ r ∈ rows, q = if r.key = r0.key then { r with dflt := decide (r.name = r0.name) } else r := by
  unfold markCert
  simp only [(find_name (name := CertRow.name) r0.name r0 hu).2 ⟨h0, rfl⟩]
  split
  · rename_i hdf
    have key : ∀ r ∈ rows, r = if r.key = r0.key then { r with dflt := decide (r.name = r0.name) } else r := by
      intro r hr
      split
      · rename_i hg
        by_cases e : r.name = r0.name
        · have := hu r hr r0 h0 e
          subst this
          rw [decide_eq_true (rfl : r.name = r.name), ← hdf]
        · have hf : r.dflt = false := by
            cases hb : r.dflt with
            | false => rfl
            | true => exact absurd (hd r hr r0 h0 hb hdf hg) e
          rw [decide_eq_false e, ← hf]
      · rfl
    constructor
    · intro hq; exact ⟨q, hq, key q hq⟩
    · rintro ⟨r, hr, rfl⟩; rw [← key r hr]; exact hr
  · simp [eq_comm]

/-! ## Changing rows in place -/

theorem Inv.reIds (h : Inv s v) {ids' : List IdRow} (f : IdRow → Bool) {d : Option PName}
    (hm : ∀ q, q ∈ ids' ↔ ∃ r ∈ s.ids, q = { r with dflt := f r })
    (hd : ∀ n, d = some n ↔ ∃ r ∈ s.ids, r.name = n ∧ f r = true)
    (hc : Coherent { v with defIdent := d }) : Inv { s with ids := ids' } { v with defIdent := d } := by
  refine ⟨hc, ?_, ?_, h.keyName, h.keyId, h.certName, ?_, h.certRef, ?_, ?_, h.key, h.defKey, h.cert, h.defCert⟩
  · intro r hr q hq e
    obtain ⟨r', hr', rfl⟩ := (hm r).1 hr
    obtain ⟨q', hq', rfl⟩ := (hm q).1 hq
    rw [h.idName r' hr' q' hq' e]
  · intro r hr q hq e
    obtain ⟨r', hr', rfl⟩ := (hm r).1 hr
    obtain ⟨q', hq', rfl⟩ := (hm q).1 hq
    rw [h.idId r' hr' q' hq' e]
  · intro r hr
    obtain ⟨q, hq, e, hk⟩ := h.keyRef r hr
    exact ⟨_, (hm _).2 ⟨q, hq, rfl⟩, e, hk⟩
  · intro n
    rw [h.ident]
    constructor
    · rintro ⟨r, hr, e⟩; exact ⟨_, (hm _).2 ⟨r, hr, rfl⟩, e⟩
    · rintro ⟨q, hq, e⟩
      obtain ⟨r, hr, rfl⟩ := (hm q).1 hq
      exact ⟨r, hr, e⟩
  · intro n
    rw [hd]
    constructor
    · rintro ⟨r, hr, e, hf⟩; exact ⟨_, (hm _).2 ⟨r, hr, rfl⟩, e, hf⟩
    · rintro ⟨q, hq, e, hf⟩
      obtain ⟨r, hr, rfl⟩ := (hm q).1 hq
      exact ⟨r, hr, e, hf⟩

theorem Inv.reKeys (h : Inv s v) {keys' : List KeyRow} (f : KeyRow → Bool) (g : KeyRow → Bytes) {d : PName → Option PName} {ky : PName → Option Bytes}
    (hm : ∀ q, q ∈ keys' ↔ ∃ r ∈ s.keys, q = { r with bits := g r, dflt := f r })
    (hg : ∀ k b, ky k = some b ↔ ∃ r ∈ s.keys, r.name = k ∧ g r = b)
    (hd : ∀ i k, d i = some k ↔ ∃ r ∈ s.keys, r.name = k ∧ f r = true ∧ KeyName i k)
    (hc : Coherent { v with key := ky, defKey := d }) : Inv { s with keys := keys' } { v with key := ky, defKey := d } := by
  refine ⟨hc, h.idName, h.idId, ?_, ?_, h.certName, ?_, ?_, h.ident, h.defIdent, ?_, ?_, h.cert, h.defCert⟩
  · intro r hr q hq e
    obtain ⟨r', hr', rfl⟩ := (hm r).1 hr
    obtain ⟨q', hq', rfl⟩ := (hm q).1 hq
    rw [h.keyName r' hr' q' hq' e]
  · intro r hr q hq e
    obtain ⟨r', hr', rfl⟩ := (hm r).1 hr
    obtain ⟨q', hq', rfl⟩ := (hm q).1 hq
    rw [h.keyId r' hr' q' hq' e]
  · intro r hr
    obtain ⟨r', hr', rfl⟩ := (hm r).1 hr
    exact h.keyRef r' hr'
  · intro r hr
    obtain ⟨q, hq, e, hk⟩ := h.certRef r hr
    exact ⟨_, (hm _).2 ⟨q, hq, rfl⟩, e, hk⟩
  · intro k b
    rw [hg]
    constructor
    · rintro ⟨r, hr, e, hb⟩; exact ⟨_, (hm _).2 ⟨r, hr, rfl⟩, e, hb⟩
    · rintro ⟨q, hq, e, hb⟩
      obtain ⟨r, hr, rfl⟩ := (hm q).1 hq
      exact ⟨r, hr, e, hb⟩
  · intro i k
    rw [hd]
    constructor
    · rintro ⟨r, hr, e, hf⟩; exact ⟨_, (hm _).2 ⟨r, hr, rfl⟩, e, hf⟩
    · rintro ⟨q, hq, e, hf⟩
      obtain ⟨r, hr, rfl⟩ := (hm q).1 hq
      exact ⟨r, hr, e, hf⟩

theorem Inv.reCerts (h : Inv s v) {certs' : List CertRow} (f : CertRow → Bool) (g : CertRow → Crt) {d : PName → Option PName} {ct : PName → Option Crt}
    (hm : ∀ q, q ∈ certs' ↔ ∃ r ∈ s.certs, q = { r with crt := g r, dflt := f r })
    (hg : ∀ k b, ct k = some b ↔ ∃ r ∈ s.certs, r.name = k ∧ g r = b)
    (hd : ∀ i k, d i = some k ↔ ∃ r ∈ s.certs, r.name = k ∧ f r = true ∧ CertName i k)
    (hc : Coherent { v with cert := ct, defCert := d }) : Inv { s with certs := certs' } { v with cert := ct, defCert := d } := by
  refine ⟨hc, h.idName, h.idId, h.keyName, h.keyId, ?_, h.keyRef, ?_, h.ident, h.defIdent, h.key, h.defKey, ?_, ?_⟩
  · intro r hr q hq e
    obtain ⟨r', hr', rfl⟩ := (hm r).1 hr
    obtain ⟨q', hq', rfl⟩ := (hm q).1 hq
    rw [h.certName r' hr' q' hq' e]
  · intro r hr
    obtain ⟨r', hr', rfl⟩ := (hm r).1 hr
    exact h.certRef r' hr'
  · intro k b
    rw [hg]
    constructor
    · rintro ⟨r, hr, e, hb⟩; exact ⟨_, (hm _).2 ⟨r, hr, rfl⟩, e, hb⟩
    · rintro ⟨q, hq, e, hb⟩
      obtain ⟨r, hr, rfl⟩ := (hm q).1 hq
      exact ⟨r, hr, e, hb⟩
  · intro i k
    rw [hd]
    constructor
    · rintro ⟨r, hr, e, hf⟩; exact ⟨_, (hm _).2 ⟨r, hr, rfl⟩, e, hf⟩
    · rintro ⟨q, hq, e, hf⟩
      obtain ⟨r, hr, rfl⟩ := (hm q).1 hq
      exact ⟨r, hr, e, hf⟩

theorem Inv.key_grp (h : Inv s v) {r : KeyRow} (hr : r ∈ s.keys) {q : IdRow} (hq : q ∈ s.ids) : r.identity = q.id ↔ KeyName q.name r.name := by
  obtain ⟨q', hq', e, hk⟩ := h.keyRef r hr
  constructor
  · intro e'
    rw [← h.idId q' hq' q hq (e.trans e')]; exact hk
  · intro hk'
    rw [← e, h.idName q' hq' q hq (keyName_inj hk hk')]

theorem Inv.cert_grp (h : Inv s v) {r : CertRow} (hr : r ∈ s.certs) {q : KeyRow} (hq : q ∈ s.keys) : r.key = q.id ↔ CertName q.name r.name := by
  obtain ⟨q', hq', e, hk⟩ := h.certRef r hr
  constructor
  · intro e'
    rw [← h.keyId q' hq' q hq (e.trans e')]; exact hk
  · intro hk'
    rw [← e, h.keyName q' hq' q hq (certName_inj hk hk')]

theorem Inv.key_same (h : Inv s v) {r q : KeyRow} (hr : r ∈ s.keys) (hq : q ∈ s.keys) {i : PName} (hi : KeyName i q.name) :
    r.identity = q.identity ↔ KeyName i r.name := by
  obtain ⟨p, hp, e, hk⟩ := h.keyRef q hq
  rw [← e, h.key_grp hr hp, keyName_inj hk hi]

theorem Inv.cert_same (h : Inv s v) {r q : CertRow} (hr : r ∈ s.certs) (hq : q ∈ s.certs) {i : PName} (hi : CertName i q.name) :
    r.key = q.key ↔ CertName i r.name := by
  obtain ⟨p, hp, e, hk⟩ := h.certRef q hq
  rw [← e, h.cert_grp hr hp, certName_inj hk hi]

theorem inv_markIdent (h : Inv s v) {n : PName} (hn : v.ident n = true) :
    Inv { s with ids := markIdent n s.ids } { v with defIdent := some n } := by
  have hex := (h.ident n).1 hn
  have hd : ∀ r ∈ s.ids, ∀ q ∈ s.ids, r.dflt = true → q.dflt = true → r.name = q.name := by
    intro r hr q hq hrd hqd
    have h1 := (h.defIdent r.name).2 ⟨r, hr, rfl, hrd⟩
    have h2 := (h.defIdent q.name).2 ⟨q, hq, rfl, hqd⟩
    rw [h1] at h2; exact Option.some.inj h2
  refine h.reIds (fun r => decide (r.name = n)) (mem_markIdent h.idName hd hex) ?_ ?_
  · intro m
    constructor
    · rintro ⟨⟩
      obtain ⟨r, hr, e⟩ := hex
      exact ⟨r, hr, e, by simp [e]⟩
    · rintro ⟨r, _, rfl, hf⟩
      simp only [decide_eq_true_eq] at hf
      rw [hf]
  · refine ⟨fun j hj => ?_, h.co.key, h.co.cert, h.co.parent, h.co.issuer, h.co.named⟩
    cases hj; exact hn

theorem inv_markKey (h : Inv s v) {i k : PName} (hk : (v.key k).isSome) (hi : KeyName i k) :
    Inv { s with keys := markKey k s.keys } { v with defKey := upd v.defKey i (some k) } := by
  obtain ⟨b, hb⟩ := Option.isSome_iff_exists.1 hk
  obtain ⟨r0, h0, rfl, _⟩ := (h.key k b).1 hb
  have hd : ∀ r ∈ s.keys, ∀ q ∈ s.keys, r.dflt = true → q.dflt = true → r.identity = q.identity → r.name = q.name := by
    intro r hr q hq hrd hqd e
    obtain ⟨p, hp, e1, hkq⟩ := h.keyRef q hq
    have hkr := (h.key_same hr hq hkq).1 e
    have h1 := (h.defKey p.name r.name).2 ⟨r, hr, rfl, hrd, hkr⟩
    have h2 := (h.defKey p.name q.name).2 ⟨q, hq, rfl, hqd, hkq⟩
    rw [h1] at h2; exact Option.some.inj h2
  refine h.reKeys (fun r => if r.identity = r0.identity then decide (r.name = r0.name) else r.dflt) (fun r => r.bits) ?_ ?_ ?_ ?_
  · intro q
    rw [mem_markKey h.keyName hd h0]
    constructor
    · rintro ⟨r, hr, rfl⟩
      refine ⟨r, hr, ?_⟩
      split <;> rfl
    · rintro ⟨r, hr, rfl⟩
      refine ⟨r, hr, ?_⟩
      split <;> rfl
  · exact h.key
  · intro j l
    simp only [upd]
    split
    · rename_i e
      subst e
      constructor
      · rintro ⟨⟩
        exact ⟨r0, h0, rfl, by simp, hi⟩
      · rintro ⟨r, hr, rfl, hf, hkr⟩
        rw [if_pos ((h.key_same hr h0 hi).2 hkr)] at hf
        simp only [decide_eq_true_eq] at hf
        rw [hf]
    · rename_i e
      rw [h.defKey]
      constructor
      · rintro ⟨r, hr, rfl, hf, hkr⟩
        refine ⟨r, hr, rfl, ?_, hkr⟩
        rw [if_neg]
        · exact hf
        · intro e'
          exact e (keyName_inj hkr ((h.key_same hr h0 hi).1 e'))
      · rintro ⟨r, hr, rfl, hf, hkr⟩
        refine ⟨r, hr, rfl, ?_, hkr⟩
        rw [if_neg] at hf
        · exact hf
        · intro e'
          exact e (keyName_inj hkr ((h.key_same hr h0 hi).1 e'))
  · refine ⟨h.co.ident, fun j l hj => ?_, h.co.cert, h.co.parent, h.co.issuer, h.co.named⟩
    simp only [upd] at hj
    split at hj
    · rename_i e; subst e; cases hj; exact ⟨hk, hi⟩
    · exact h.co.key _ _ hj

theorem inv_markCert (h : Inv s v) {k c : PName} (hc : (v.cert c).isSome) (hk : CertName k c) :
    Inv { s with certs := markCert c s.certs } { v with defCert := upd v.defCert k (some c) } := by
  obtain ⟨b, hb⟩ := Option.isSome_iff_exists.1 hc
  obtain ⟨r0, h0, rfl, _⟩ := (h.cert c b).1 hb
  have hd : ∀ r ∈ s.certs, ∀ q ∈ s.certs, r.dflt = true → q.dflt = true → r.key = q.key → r.name = q.name := by
    intro r hr q hq hrd hqd e
    obtain ⟨p, hp, e1, hkq⟩ := h.certRef q hq
    have hkr := (h.cert_same hr hq hkq).1 e
    have h1 := (h.defCert p.name r.name).2 ⟨r, hr, rfl, hrd, hkr⟩
    have h2 := (h.defCert p.name q.name).2 ⟨q, hq, rfl, hqd, hkq⟩
    rw [h1] at h2; exact Option.some.inj h2
  refine h.reCerts (fun r => if r.key = r0.key then decide (r.name = r0.name) else r.dflt) (fun r => r.crt) ?_ ?_ ?_ ?_
  · intro q
    rw [mem_markCert h.certName hd h0]
    constructor
    · rintro ⟨r, hr, rfl⟩
      refine ⟨r, hr, ?_⟩
      split <;> rfl
    · rintro ⟨r, hr, rfl⟩
      refine ⟨r, hr, ?_⟩
      split <;> rfl
  · exact h.cert
  · intro j l
    simp only [upd]
    split
    · rename_i e
      subst e
      constructor
      · rintro ⟨⟩
        exact ⟨r0, h0, rfl, by simp, hk⟩
      · rintro ⟨r, hr, rfl, hf, hkr⟩
        rw [if_pos ((h.cert_same hr h0 hk).2 hkr)] at hf
        simp only [decide_eq_true_eq] at hf
        rw [hf]
    · rename_i e
      rw [h.defCert]
      constructor
      · rintro ⟨r, hr, rfl, hf, hkr⟩
        refine ⟨r, hr, rfl, ?_, hkr⟩
        rw [if_neg]
        · exact hf
        · intro e'
          exact e (certName_inj hkr ((h.cert_same hr h0 hk).1 e'))
      · rintro ⟨r, hr, rfl, hf, hkr⟩
        refine ⟨r, hr, rfl, ?_, hkr⟩
        rw [if_neg] at hf
        · exact hf
        · intro e'
          exact e (certName_inj hkr ((h.cert_same hr h0 hk).1 e'))
  · refine ⟨h.co.ident, h.co.key, fun j l hj => ?_, h.co.parent, h.co.issuer, h.co.named⟩
    simp only [upd] at hj
    split at hj
    · rename_i e; subst e; cases hj; exact ⟨hc, hk⟩
    · exact h.co.cert _ _ hj

/-! ## New rows -/

theorem inv_newIdent (h : Inv s v) {n : PName} (hn : v.ident n = false) :
    Inv { s with ids := s.ids ++ [⟨newId (s.ids.map (·.id)), n, false⟩] } { v with ident := upd v.ident n true } := by
  have hfresh : ∀ r ∈ s.ids, r.id ≠ newId (s.ids.map (·.id)) := fun r hr => newId_fresh _ _ (List.mem_map_of_mem hr)
  have hname : ∀ r ∈ s.ids, r.name ≠ n := by
    intro r hr e
    rw [(h.ident n).2 ⟨r, hr, e⟩] at hn; cases hn
  generalize newId (s.ids.map (·.id)) = w at hfresh
  refine ⟨?_, ?_, ?_, h.keyName, h.keyId, h.certName, ?_, h.certRef, ?_, ?_, h.key, h.defKey, h.cert, h.defCert⟩
  · refine ⟨fun j hj => ?_, h.co.key, h.co.cert, fun k hk => ?_, h.co.issuer, h.co.named⟩
    · simp only [upd]
      split
      · rfl
      · exact h.co.ident _ hj
    · obtain ⟨j, hj, hi⟩ := h.co.parent k hk
      refine ⟨j, hj, ?_⟩
      simp only [upd]
      split
      · rfl
      · exact hi
  · intro r hr q hq e
    simp only [List.mem_append, List.mem_singleton] at hr hq
    rcases hr with hr | rfl <;> rcases hq with hq | rfl
    · exact h.idName r hr q hq e
    · exact absurd e (hname r hr)
    · exact absurd e.symm (hname q hq)
    · rfl
  · intro r hr q hq e
    simp only [List.mem_append, List.mem_singleton] at hr hq
    rcases hr with hr | rfl <;> rcases hq with hq | rfl
    · exact h.idId r hr q hq e
    · exact absurd e (hfresh r hr)
    · exact absurd e.symm (hfresh q hq)
    · rfl
  · intro r hr
    obtain ⟨q, hq, hk⟩ := h.keyRef r hr
    exact ⟨q, List.mem_append_left _ hq, hk⟩
  · intro m
    simp only [upd, List.mem_append, List.mem_singleton]
    split
    · rename_i e; subst e
      simp only [true_iff]
      exact ⟨_, Or.inr rfl, rfl⟩
    · rename_i e
      rw [h.ident]
      constructor
      · rintro ⟨r, hr, he⟩; exact ⟨r, Or.inl hr, he⟩
      · rintro ⟨r, hr | rfl, he⟩
        · exact ⟨r, hr, he⟩
        · exact absurd he.symm e
  · intro m
    rw [h.defIdent]
    simp only [List.mem_append, List.mem_singleton]
    constructor
    · rintro ⟨r, hr, he⟩; exact ⟨r, Or.inl hr, he⟩
    · rintro ⟨r, hr | rfl, he⟩
      · exact ⟨r, hr, he⟩
      · exact absurd he.2 (by simp)

theorem inv_newKey (h : Inv s v) {k : PName} {q0 : IdRow} (hq0 : q0 ∈ s.ids) (hi : KeyName q0.name k) (hn : v.key k = none) (bits : Bytes) :
    Inv { s with keys := s.keys ++ [⟨newId (s.keys.map (·.id)), q0.id, k, bits, false⟩] } { v with key := upd v.key k (some bits) } := by
  have hfresh : ∀ r ∈ s.keys, r.id ≠ newId (s.keys.map (·.id)) := fun r hr => newId_fresh _ _ (List.mem_map_of_mem hr)
  have hname : ∀ r ∈ s.keys, r.name ≠ k := by
    intro r hr e
    rw [(h.key k r.bits).2 ⟨r, hr, e, rfl⟩] at hn; cases hn
  generalize newId (s.keys.map (·.id)) = w at hfresh
  refine ⟨?_, h.idName, h.idId, ?_, ?_, h.certName, ?_, ?_, h.ident, h.defIdent, ?_, ?_, h.cert, h.defCert⟩
  · refine ⟨h.co.ident, fun j l hj => ?_, h.co.cert, fun l hl => ?_, fun c hc => ?_, h.co.named⟩
    · refine ⟨?_, (h.co.key _ _ hj).2⟩
      simp only [upd]
      split
      · rfl
      · exact (h.co.key _ _ hj).1
    · simp only [upd] at hl
      split at hl
      · rename_i e; subst e
        exact ⟨_, hi, (h.ident _).2 ⟨q0, hq0, rfl⟩⟩
      · exact h.co.parent l hl
    · obtain ⟨l, hl, hs⟩ := h.co.issuer c hc
      refine ⟨l, hl, ?_⟩
      simp only [upd]
      split
      · rfl
      · exact hs
  · intro r hr q hq e
    simp only [List.mem_append, List.mem_singleton] at hr hq
    rcases hr with hr | rfl <;> rcases hq with hq | rfl
    · exact h.keyName r hr q hq e
    · exact absurd e (hname r hr)
    · exact absurd e.symm (hname q hq)
    · rfl
  · intro r hr q hq e
    simp only [List.mem_append, List.mem_singleton] at hr hq
    rcases hr with hr | rfl <;> rcases hq with hq | rfl
    · exact h.keyId r hr q hq e
    · exact absurd e (hfresh r hr)
    · exact absurd e.symm (hfresh q hq)
    · rfl
  · intro r hr
    simp only [List.mem_append, List.mem_singleton] at hr
    rcases hr with hr | rfl
    · exact h.keyRef r hr
    · exact ⟨q0, hq0, rfl, hi⟩
  · intro r hr
    obtain ⟨q, hq, hk⟩ := h.certRef r hr
    exact ⟨q, List.mem_append_left _ hq, hk⟩
  · intro m b
    simp only [upd, List.mem_append, List.mem_singleton]
    split
    · rename_i e; subst e
      constructor
      · rintro ⟨⟩; exact ⟨_, Or.inr rfl, rfl, rfl⟩
      · rintro ⟨r, hr | rfl, he, hb⟩
        · exact absurd he (hname r hr)
        · exact congrArg some hb
    · rename_i e
      rw [h.key]
      constructor
      · rintro ⟨r, hr, he⟩; exact ⟨r, Or.inl hr, he⟩
      · rintro ⟨r, hr | rfl, he⟩
        · exact ⟨r, hr, he⟩
        · exact absurd he.1.symm e
  · intro j m
    rw [h.defKey]
    simp only [List.mem_append, List.mem_singleton]
    constructor
    · rintro ⟨r, hr, he⟩; exact ⟨r, Or.inl hr, he⟩
    · rintro ⟨r, hr | rfl, he⟩
      · exact ⟨r, hr, he⟩
      · exact absurd he.2.1 (by simp)

theorem inv_newCert (h : Inv s v) {q0 : KeyRow} (hq0 : q0 ∈ s.keys) {c : Crt} (hi : CertName q0.name c.name) (hn : v.cert c.name = none) :
    Inv { s with certs := s.certs ++ [⟨newId (s.certs.map (·.id)), q0.id, c.name, c, false⟩] } { v with cert := upd v.cert c.name (some c) } := by
  have hname : ∀ r ∈ s.certs, r.name ≠ c.name := by
    intro r hr e
    rw [(h.cert c.name r.crt).2 ⟨r, hr, e, rfl⟩] at hn; cases hn
  generalize newId (s.certs.map (·.id)) = w
  refine ⟨?_, h.idName, h.idId, h.keyName, h.keyId, ?_, h.keyRef, ?_, h.ident, h.defIdent, h.key, h.defKey, ?_, ?_⟩
  · refine ⟨h.co.ident, h.co.key, fun j l hj => ?_, h.co.parent, fun d hd => ?_, fun d x hd => ?_⟩
    · refine ⟨?_, (h.co.cert _ _ hj).2⟩
      simp only [upd]
      split
      · rfl
      · exact (h.co.cert _ _ hj).1
    · simp only [upd] at hd
      split at hd
      · rename_i e; subst e
        exact ⟨_, hi, by rw [(h.key q0.name q0.bits).2 ⟨q0, hq0, rfl, rfl⟩]; rfl⟩
      · exact h.co.issuer d hd
    · simp only [upd] at hd
      split at hd
      · rename_i e; cases hd; exact e.symm
      · exact h.co.named d x hd
  · intro r hr q hq e
    simp only [List.mem_append, List.mem_singleton] at hr hq
    rcases hr with hr | rfl <;> rcases hq with hq | rfl
    · exact h.certName r hr q hq e
    · exact absurd e (hname r hr)
    · exact absurd e.symm (hname q hq)
    · rfl
  · intro r hr
    simp only [List.mem_append, List.mem_singleton] at hr
    rcases hr with hr | rfl
    · exact h.certRef r hr
    · exact ⟨q0, hq0, rfl, hi⟩
  · intro m b
    simp only [upd, List.mem_append, List.mem_singleton]
    split
    · rename_i e; subst e
      constructor
      · rintro ⟨⟩; exact ⟨_, Or.inr rfl, rfl, rfl⟩
      · rintro ⟨r, hr | rfl, he, hb⟩
        · exact absurd he (hname r hr)
        · exact congrArg some hb
    · rename_i e
      rw [h.cert]
      constructor
      · rintro ⟨r, hr, he⟩; exact ⟨r, Or.inl hr, he⟩
      · rintro ⟨r, hr | rfl, he⟩
        · exact ⟨r, hr, he⟩
        · exact absurd he.1.symm e
  · intro j m
    rw [h.defCert]
    simp only [List.mem_append, List.mem_singleton]
    constructor
    · rintro ⟨r, hr, he⟩; exact ⟨r, Or.inl hr, he⟩
    · rintro ⟨r, hr | rfl, he⟩
      · exact ⟨r, hr, he⟩
      · exact absurd he.2.1 (by simp)

end Sql
end Ndn.Pib
