import Verif.Pib.Back
import Verif.Pib.FrontSpec
namespace Ndn.Pib
open Ndn.Name Spec

/-- A back end that works as specified; `A` says which keys may be removed. -/
structure Faithful {σ : Type} (b : Backend σ) (R : σ → View → Prop) (A : View → PName → Prop) : Prop where
  init : R b.init View.empty
  rep : ∀ {s v}, R s v → Rep b s v
  step : ∀ {s v op}, R s v → Proper op → (∀ k, op = .removeKey k → A v k) →
    (step b s op).1 = (next v op).1 ∧ R (step b s op).2 (next v op).2

def IdOk (v : View) (o : IdObj) : Prop :=
  v.ident o.name = true ∧ ∀ k, k ∈ o.keyNames ↔ (v.key k).isSome ∧ KeyName o.name k

structure KeyOk (v : View) (o : KeyObj) : Prop where
  bits : v.key o.name = some o.bits
  names : ∀ c, c ∈ o.certNames ↔ (v.cert c).isSome ∧ CertName o.name c
  certs : ∀ c x, get c o.certs = some x → v.cert c = some x ∧ CertName o.name c
  dcert : ∀ x, o.dcert = some x → v.defCert o.name = some x.name ∧ v.cert x.name = some x

/-- The caches hold part of what the view says. -/
structure Sim {σ : Type} (R : σ → View → Prop) (fr : Front σ) (w : World) : Prop where
  rep : R fr.db w.v
  names : ∀ n, n ∈ fr.names ↔ w.v.ident n = true
  idU : ∀ o ∈ fr.ids, ∀ q ∈ fr.ids, o.name = q.name → o = q
  idH : ∀ o ∈ fr.ids, w.hs o.h = .alive (.ident o.name)
  idAll : ∀ h n, w.hs h = .alive (.ident n) → ∃ o ∈ fr.ids, o.h = h ∧ o.name = n
  idOk : ∀ o ∈ fr.ids, IdOk w.v o
  keyU : ∀ o ∈ fr.keys, ∀ q ∈ fr.keys, o.name = q.name → o = q
  keyH : ∀ o ∈ fr.keys, w.hs o.h = .alive (.key o.name)
  keyAll : ∀ h n, w.hs h = .alive (.key n) → ∃ o ∈ fr.keys, o.h = h ∧ o.name = n
  keyOk : ∀ o ∈ fr.keys, KeyOk w.v o
  owner : ∀ o ∈ fr.keys, ∀ i, KeyName i o.name → ∃ q ∈ fr.ids, q.name = i
  dkey : ∀ o ∈ fr.ids, ∀ q ∈ fr.keys, o.dkey = some q.h → w.v.defKey o.name = some q.name
  dident : ∀ o ∈ fr.ids, fr.dident = some o.h → w.v.defIdent = some o.name
  fresh : ∀ h, fr.next ≤ h → w.hs h = .unused
  dkeyLt : ∀ o ∈ fr.ids, ∀ h, o.dkey = some h → h < fr.next
  didentLt : ∀ h, fr.dident = some h → h < fr.next

namespace Sim
variable {σ : Type} {b : Backend σ} {R : σ → View → Prop} {A : View → PName → Prop} {fr : Front σ} {w : World}

theorem lt (hs : Sim R fr w) {h : Nat} {r : Ref} (e : w.hs h = .alive r) : h < fr.next := by
  rcases Nat.lt_or_ge h fr.next with l | l
  · exact l
  · rw [hs.fresh h l] at e; cases e

theorem idEq (hs : Sim R fr w) {o q : IdObj} (ho : o ∈ fr.ids) (hq : q ∈ fr.ids) (e : o.h = q.h) : o = q := by
  have h1 := hs.idH o ho
  rw [e, hs.idH q hq] at h1
  injection h1 with h1; injection h1 with h1
  exact hs.idU o ho q hq h1.symm

theorem keyEq (hs : Sim R fr w) {o q : KeyObj} (ho : o ∈ fr.keys) (hq : q ∈ fr.keys) (e : o.h = q.h) : o = q := by
  have h1 := hs.keyH o ho
  rw [e, hs.keyH q hq] at h1
  injection h1 with h1; injection h1 with h1
  exact hs.keyU o ho q hq h1.symm

theorem ident?_iff (hs : Sim R fr w) (h : Nat) (o : IdObj) : fr.ident? h = some o ↔ o ∈ fr.ids ∧ o.h = h := by
  constructor
  · intro e
    exact ⟨List.mem_of_find?_eq_some e, by simpa using List.find?_some e⟩
  · rintro ⟨ho, rfl⟩
    cases e : fr.ident? o.h with
    | none =>
      have := List.find?_eq_none.1 e o ho
      simp at this
    | some q =>
      have := hs.idEq (List.mem_of_find?_eq_some e) ho (by simpa using List.find?_some e)
      rw [this]

theorem key?_iff (hs : Sim R fr w) (h : Nat) (o : KeyObj) : fr.key? h = some o ↔ o ∈ fr.keys ∧ o.h = h := by
  constructor
  · intro e
    exact ⟨List.mem_of_find?_eq_some e, by simpa using List.find?_some e⟩
  · rintro ⟨ho, rfl⟩
    cases e : fr.key? o.h with
    | none =>
      have := List.find?_eq_none.1 e o ho
      simp at this
    | some q =>
      have := hs.keyEq (List.mem_of_find?_eq_some e) ho (by simpa using List.find?_some e)
      rw [this]

theorem ident?_none (hs : Sim R fr w) {h : Nat} (hn : ∀ i, w.hs h ≠ .alive (.ident i)) : fr.ident? h = none := by
  cases e : fr.ident? h with
  | none => rfl
  | some o =>
    obtain ⟨ho, rfl⟩ := (hs.ident?_iff h o).1 e
    exact absurd (hs.idH o ho) (hn _)

theorem key?_none (hs : Sim R fr w) {h : Nat} (hn : ∀ i, w.hs h ≠ .alive (.key i)) : fr.key? h = none := by
  cases e : fr.key? h with
  | none => rfl
  | some o =>
    obtain ⟨ho, rfl⟩ := (hs.key?_iff h o).1 e
    exact absurd (hs.keyH o ho) (hn _)

theorem identNamed_iff (hs : Sim R fr w) (n : PName) (o : IdObj) : fr.identNamed n = some o ↔ o ∈ fr.ids ∧ o.name = n :=
  Sql.find_name n o hs.idU

theorem keyNamed_iff (hs : Sim R fr w) (n : PName) (o : KeyObj) : fr.keyNamed n = some o ↔ o ∈ fr.keys ∧ o.name = n :=
  Sql.find_name n o hs.keyU

theorem sameSet_of {a c : List PName} {p : PName → Prop} (ha : ∀ n, n ∈ a ↔ p n) (hc : ∀ n, n ∈ c ↔ p n) : sameSet a c = true := by
  simp only [sameSet, Bool.and_eq_true, List.all_eq_true, decide_eq_true_eq]
  exact ⟨fun n h => (hc n).2 ((ha n).1 h), fun n h => (ha n).2 ((hc n).1 h)⟩

theorem identsOk (F : Faithful b R A) (hs : Sim R fr w) : fr.identsConsistent b = true :=
  sameSet_of hs.names (F.rep hs.rep).ans.getIdentities

theorem keysOk (F : Faithful b R A) (hs : Sim R fr w) {o : IdObj} (ho : IdOk w.v o) : fr.keysConsistent b o = true := by
  obtain ⟨l, e, hl⟩ := (F.rep hs.rep).ans.getKeysOfIdentity o.name
  simp only [Front.keysConsistent, e]
  exact sameSet_of ho.2 hl

theorem certsOk (F : Faithful b R A) (hs : Sim R fr w) {o : KeyObj} (ho : KeyOk w.v o) : fr.certsConsistent b o = true := by
  obtain ⟨l, e, hl⟩ := (F.rep hs.rep).ans.getCertificatesOfKey o.name
  simp only [Front.certsConsistent, e]
  exact sameSet_of ho.names hl

/-! ## Three ways to change the state -/

/-- Objects are forgotten. -/
theorem drop (hs : Sim R fr w) (p : Ref → Bool) (hp : ∀ i k, KeyName i k → p (.ident i) = true → p (.key k) = true) :
    Sim R { fr with ids := fr.ids.filter (fun o => !p (.ident o.name)), keys := fr.keys.filter (fun o => !p (.key o.name)) }
      ⟨w.v, kill w.hs p⟩ where
  rep := hs.rep
  names := hs.names
  idU := fun o ho q hq => hs.idU o (List.mem_filter.1 ho).1 q (List.mem_filter.1 hq).1
  idH := fun o ho => by
    obtain ⟨ho, hf⟩ := List.mem_filter.1 ho
    simp only [Bool.not_eq_true'] at hf
    simp [kill, hs.idH o ho, hf]
  idAll := fun h n e => by
    simp only [kill] at e
    cases hh : w.hs h with
    | alive r =>
      simp only [hh] at e
      split at e
      · cases e
      · rename_i hr
        injection e with e; subst e
        obtain ⟨o, ho, h1, h2⟩ := hs.idAll h n hh
        exact ⟨o, List.mem_filter.2 ⟨ho, by rw [h2]; simpa using hr⟩, h1, h2⟩
    | unused => simp [hh] at e
    | dead => simp [hh] at e
  idOk := fun o ho => hs.idOk o (List.mem_filter.1 ho).1
  keyU := fun o ho q hq => hs.keyU o (List.mem_filter.1 ho).1 q (List.mem_filter.1 hq).1
  keyH := fun o ho => by
    obtain ⟨ho, hf⟩ := List.mem_filter.1 ho
    simp only [Bool.not_eq_true'] at hf
    simp [kill, hs.keyH o ho, hf]
  keyAll := fun h n e => by
    simp only [kill] at e
    cases hh : w.hs h with
    | alive r =>
      simp only [hh] at e
      split at e
      · cases e
      · rename_i hr
        injection e with e; subst e
        obtain ⟨o, ho, h1, h2⟩ := hs.keyAll h n hh
        exact ⟨o, List.mem_filter.2 ⟨ho, by rw [h2]; simpa using hr⟩, h1, h2⟩
    | unused => simp [hh] at e
    | dead => simp [hh] at e
  keyOk := fun o ho => hs.keyOk o (List.mem_filter.1 ho).1
  owner := fun o ho i hi => by
    obtain ⟨ho, hf⟩ := List.mem_filter.1 ho
    obtain ⟨q, hq, rfl⟩ := hs.owner o ho i hi
    refine ⟨q, List.mem_filter.2 ⟨hq, ?_⟩, rfl⟩
    simp only [Bool.not_eq_true'] at hf ⊢
    rw [← Bool.not_eq_true]
    intro h
    rw [hp _ _ hi h] at hf; cases hf
  dkey := fun o ho q hq => hs.dkey o (List.mem_filter.1 ho).1 q (List.mem_filter.1 hq).1
  dident := fun o ho => hs.dident o (List.mem_filter.1 ho).1
  fresh := fun h l => by simp [kill, hs.fresh h l]
  dkeyLt := fun o ho => hs.dkeyLt o (List.mem_filter.1 ho).1
  didentLt := hs.didentLt

/-- Objects and the database change, but no object comes or goes. -/
theorem edit (hs : Sim R fr w) {fr' : Front σ} {v' : View} (f : IdObj → IdObj) (g : KeyObj → KeyObj)
    (hf : ∀ o, (f o).h = o.h ∧ (f o).name = o.name) (hg : ∀ o, (g o).h = o.h ∧ (g o).name = o.name)
    (hids : fr'.ids = fr.ids.map f) (hkeys : fr'.keys = fr.keys.map g) (hnext : fr'.next = fr.next)
    (rep : R fr'.db v') (names : ∀ n, n ∈ fr'.names ↔ v'.ident n = true)
    (idOk : ∀ o ∈ fr.ids, IdOk v' (f o)) (keyOk : ∀ o ∈ fr.keys, KeyOk v' (g o))
    (dkey : ∀ o ∈ fr.ids, ∀ q ∈ fr.keys, (f o).dkey = some q.h → v'.defKey o.name = some q.name)
    (dident : ∀ o ∈ fr.ids, fr'.dident = some o.h → v'.defIdent = some o.name)
    (dkeyLt : ∀ o ∈ fr.ids, ∀ h, (f o).dkey = some h → h < fr.next)
    (didentLt : ∀ h, fr'.dident = some h → h < fr.next) : Sim R fr' ⟨v', w.hs⟩ where
  rep := rep
  names := names
  idU := fun o ho q hq e => by
    rw [hids] at ho hq
    obtain ⟨o, ho2, eo⟩ := List.mem_map.1 ho; subst eo; replace ho := ho2
    obtain ⟨q, hq2, eq⟩ := List.mem_map.1 hq; subst eq; replace hq := hq2
    rw [(hf o).2, (hf q).2] at e
    rw [hs.idU o ho q hq e]
  idH := fun o ho => by
    rw [hids] at ho
    obtain ⟨o, ho2, eo⟩ := List.mem_map.1 ho; subst eo; replace ho := ho2
    rw [(hf o).1, (hf o).2]; exact hs.idH o ho
  idAll := fun h n e => by
    obtain ⟨o, ho, h1, h2⟩ := hs.idAll h n e
    exact ⟨f o, by rw [hids]; exact List.mem_map_of_mem ho, by rw [(hf o).1]; exact h1, by rw [(hf o).2]; exact h2⟩
  idOk := fun o ho => by
    rw [hids] at ho
    obtain ⟨o, ho2, eo⟩ := List.mem_map.1 ho; subst eo; replace ho := ho2
    exact idOk o ho
  keyU := fun o ho q hq e => by
    rw [hkeys] at ho hq
    obtain ⟨o, ho2, eo⟩ := List.mem_map.1 ho; subst eo; replace ho := ho2
    obtain ⟨q, hq2, eq⟩ := List.mem_map.1 hq; subst eq; replace hq := hq2
    rw [(hg o).2, (hg q).2] at e
    rw [hs.keyU o ho q hq e]
  keyH := fun o ho => by
    rw [hkeys] at ho
    obtain ⟨o, ho2, eo⟩ := List.mem_map.1 ho; subst eo; replace ho := ho2
    rw [(hg o).1, (hg o).2]; exact hs.keyH o ho
  keyAll := fun h n e => by
    obtain ⟨o, ho, h1, h2⟩ := hs.keyAll h n e
    exact ⟨g o, by rw [hkeys]; exact List.mem_map_of_mem ho, by rw [(hg o).1]; exact h1, by rw [(hg o).2]; exact h2⟩
  keyOk := fun o ho => by
    rw [hkeys] at ho
    obtain ⟨o, ho2, eo⟩ := List.mem_map.1 ho; subst eo; replace ho := ho2
    exact keyOk o ho
  owner := fun o ho i hi => by
    rw [hkeys] at ho
    obtain ⟨o, ho2, eo⟩ := List.mem_map.1 ho; subst eo; replace ho := ho2
    rw [(hg o).2] at hi
    obtain ⟨q, hq, rfl⟩ := hs.owner o ho i hi
    exact ⟨f q, by rw [hids]; exact List.mem_map_of_mem hq, (hf q).2⟩
  dkey := fun o ho q hq e => by
    rw [hids] at ho
    obtain ⟨o, ho2, eo⟩ := List.mem_map.1 ho; subst eo; replace ho := ho2
    rw [hkeys] at hq
    obtain ⟨q, hq2, eq⟩ := List.mem_map.1 hq; subst eq; replace hq := hq2
    rw [(hg q).1] at e
    rw [(hf o).2, (hg q).2]
    exact dkey o ho q hq e
  dident := fun o ho e => by
    rw [hids] at ho
    obtain ⟨o, ho2, eo⟩ := List.mem_map.1 ho; subst eo; replace ho := ho2
    rw [(hf o).1] at e
    rw [(hf o).2]
    exact dident o ho e
  fresh := fun h l => hs.fresh h (hnext ▸ l)
  dkeyLt := fun o ho h e => by
    rw [hids] at ho
    obtain ⟨o, ho2, eo⟩ := List.mem_map.1 ho; subst eo; replace ho := ho2
    rw [hnext]; exact dkeyLt o ho h e
  didentLt := fun h e => by rw [hnext]; exact didentLt h e

/-- A new object for an identity. -/
theorem newIdent (F : Faithful b R A) (hs : Sim R fr w) {n : PName} (hn : w.v.ident n = true) (h0 : fr.identNamed n = none) :
    ∃ fr', fr.newIdent b n = (.ok fr.next, fr') ∧ Sim R fr' ⟨w.v, issue w.hs fr.next (.ident n)⟩ ∧
      Issued w.hs fr.next (.ident n) := by
  obtain ⟨l, e, hl⟩ := (F.rep hs.rep).ans.getKeysOfIdentity n
  have hno : ∀ o ∈ fr.ids, o.name ≠ n := by
    intro o ho e
    have := (hs.identNamed_iff n o).2 ⟨ho, e⟩
    rw [h0] at this; cases this
  have hlt : ∀ {h r}, w.hs h = .alive r → h ≠ fr.next := fun e => Nat.ne_of_lt (hs.lt e)
  refine ⟨{ fr with ids := ⟨fr.next, n, l, none⟩ :: fr.ids, next := fr.next + 1 }, ?_, ?_, ?_⟩
  · simp only [Front.newIdent, e, (F.rep hs.rep).ans.hasIdentity, hn, if_true]
  · refine ⟨hs.rep, hs.names, ?_, ?_, ?_, ?_, hs.keyU, ?_, ?_, hs.keyOk, ?_, ?_, ?_, ?_, ?_, ?_⟩
    · intro o ho q hq e
      rcases List.mem_cons.1 ho with rfl | ho <;> rcases List.mem_cons.1 hq with rfl | hq
      · rfl
      · exact absurd e.symm (hno q hq)
      · exact absurd e (hno o ho)
      · exact hs.idU o ho q hq e
    · intro o ho
      rcases List.mem_cons.1 ho with rfl | ho
      · simp [issue]
      · have := hs.idH o ho
        simp [issue, hlt this, this]
    · intro h m e
      simp only [issue] at e
      split at e
      · rename_i hh
        injection e with e; injection e with e
        exact ⟨_, List.mem_cons_self .., hh.symm, e⟩
      · obtain ⟨o, ho, h1, h2⟩ := hs.idAll h m e
        exact ⟨o, List.mem_cons_of_mem _ ho, h1, h2⟩
    · intro o ho
      rcases List.mem_cons.1 ho with rfl | ho
      · exact ⟨hn, hl⟩
      · exact hs.idOk o ho
    · intro o ho
      have := hs.keyH o ho
      simp [issue, hlt this, this]
    · intro h m e
      simp only [issue] at e
      split at e
      · cases e
      · exact hs.keyAll h m e
    · intro o ho i hi
      obtain ⟨q, hq, e⟩ := hs.owner o ho i hi
      exact ⟨q, List.mem_cons_of_mem _ hq, e⟩
    · intro o ho q hq e
      rcases List.mem_cons.1 ho with rfl | ho
      · cases e
      · exact hs.dkey o ho q hq e
    · intro o ho e
      rcases List.mem_cons.1 ho with rfl | ho
      · exact absurd (hs.didentLt _ e) (Nat.lt_irrefl _)
      · exact hs.dident o ho e
    · intro h l
      simp only at l
      have hne : h ≠ fr.next := by omega
      simp only [issue, hne, if_false]
      exact hs.fresh h (by omega)
    · intro o ho h e
      rcases List.mem_cons.1 ho with rfl | ho
      · cases e
      · exact Nat.lt_succ_of_lt (hs.dkeyLt o ho h e)
    · intro h e
      exact Nat.lt_succ_of_lt (hs.didentLt h e)
  · refine ⟨Or.inr (hs.fresh _ (Nat.le_refl _)), fun x hx => ?_⟩
    obtain ⟨o, ho, _, h2⟩ := hs.idAll x n hx
    exact absurd h2 (hno o ho)

/-- A new object for a key. -/
theorem newKey (F : Faithful b R A) (hs : Sim R fr w) {k : PName} {bits : Bytes} (hk : w.v.key k = some bits)
    (h0 : ∀ o ∈ fr.keys, o.name ≠ k) (how : ∀ i, KeyName i k → ∃ q ∈ fr.ids, q.name = i) :
    ∃ fr', fr.newKey b k bits = (.ok fr.next, fr') ∧ Sim R fr' ⟨w.v, issue w.hs fr.next (.key k)⟩ ∧
      Issued w.hs fr.next (.key k) ∧ fr'.keyNamed k = some ⟨fr.next, k, bits, (fr'.keyNamed k).map (·.certNames) |>.getD [], [], none⟩ := by
  obtain ⟨l, e, hl⟩ := (F.rep hs.rep).ans.getCertificatesOfKey k
  have hfil : fr.keys.filter (fun o => decide (o.name ≠ k)) = fr.keys := by
    rw [List.filter_eq_self]; intro o ho; simpa using h0 o ho
  have hlt : ∀ {h r}, w.hs h = .alive r → h ≠ fr.next := fun e => Nat.ne_of_lt (hs.lt e)
  refine ⟨{ fr with keys := ⟨fr.next, k, bits, l, [], none⟩ :: fr.keys, next := fr.next + 1 }, ?_, ?_, ?_, ?_⟩
  · simp only [Front.newKey, e, (F.rep hs.rep).ans.hasKey, hk, Option.isSome_some, if_true, hfil]
  · refine ⟨hs.rep, hs.names, hs.idU, ?_, ?_, hs.idOk, ?_, ?_, ?_, ?_, ?_, ?_, hs.dident, ?_, ?_, ?_⟩
    · intro o ho
      have := hs.idH o ho
      simp [issue, hlt this, this]
    · intro h m e
      simp only [issue] at e
      split at e
      · cases e
      · exact hs.idAll h m e
    · intro o ho q hq e
      rcases List.mem_cons.1 ho with rfl | ho <;> rcases List.mem_cons.1 hq with rfl | hq
      · rfl
      · exact absurd e.symm (h0 q hq)
      · exact absurd e (h0 o ho)
      · exact hs.keyU o ho q hq e
    · intro o ho
      rcases List.mem_cons.1 ho with rfl | ho
      · simp [issue]
      · have := hs.keyH o ho
        simp [issue, hlt this, this]
    · intro h m e
      simp only [issue] at e
      split at e
      · rename_i hh
        injection e with e; injection e with e
        exact ⟨_, List.mem_cons_self .., hh.symm, e⟩
      · obtain ⟨o, ho, h1, h2⟩ := hs.keyAll h m e
        exact ⟨o, List.mem_cons_of_mem _ ho, h1, h2⟩
    · intro o ho
      rcases List.mem_cons.1 ho with rfl | ho
      · exact ⟨hk, hl, fun c x h => by simp [get] at h, fun x h => by cases h⟩
      · exact hs.keyOk o ho
    · intro o ho i hi
      rcases List.mem_cons.1 ho with rfl | ho
      · exact how i hi
      · exact hs.owner o ho i hi
    · intro o ho q hq e
      rcases List.mem_cons.1 hq with rfl | hq
      · exact absurd (hs.dkeyLt o ho _ e) (Nat.lt_irrefl _)
      · exact hs.dkey o ho q hq e
    · intro h l
      simp only at l
      have hne : h ≠ fr.next := by omega
      simp only [issue, hne, if_false]
      exact hs.fresh h (by omega)
    · intro o ho h e
      exact Nat.lt_succ_of_lt (hs.dkeyLt o ho h e)
    · intro h e
      exact Nat.lt_succ_of_lt (hs.didentLt h e)
  · refine ⟨Or.inr (hs.fresh _ (Nat.le_refl _)), fun x hx => ?_⟩
    obtain ⟨o, ho, _, h2⟩ := hs.keyAll x k hx
    exact absurd h2 (h0 o ho)
  · simp [Front.keyNamed]

end Sim
end Ndn.Pib
