import Verif.Pib.FrontRun
/-
C81: `Pib`, `Identity` and `Key`: handles and what they answer, over each of the two back ends.
-/
namespace Ndn.Pib
open Ndn.Name Spec

private def nm (s : List UInt8) : PName := s.map (fun c => ⟨8, [c]⟩)
private def idA : PName := nm [97]
private def idB : PName := nm [98]
private def kA1 : PName := idA ++ [keyComp, ⟨8, [1]⟩]
private def kA2 : PName := idA ++ [keyComp, ⟨8, [2]⟩]
private def crtOf (k : PName) (v : UInt8) (pub sig : Bytes) : Crt := ⟨k ++ [⟨8, [115]⟩, ⟨54, [v]⟩], pub, sig⟩

private theorem kA1_name : KeyName idA kA1 := ⟨_, rfl⟩
private theorem kA2_name : KeyName idA kA2 := ⟨_, rfl⟩
private theorem crt_name {i k : PName} (h : KeyName i k) (v : UInt8) (pub sig : Bytes) : CertName k (crtOf k v pub sig).name :=
  ⟨⟨_, _, rfl⟩, i, h⟩

/-- The answers to a sequence of calls on a new PIB. -/
def answers {σ : Type} (b : Backend σ) (ops : List FOp) : List Out := (frun b ops (Front.start b b.init)).1

/-- **C81**: any sequence of calls on a new PIB, its identities and its keys is answered as documented. -/
def C81_claim {σ : Type} (b : Backend σ) : Prop :=
  ∀ ops, (∀ op ∈ ops, Real op) → Conforms (fun _ _ => True) World.init ops (answers b ops)

/-- **C81** over `pib-sqlite3`, as long as a certificate made default by its content has the public key of the key and
no other certificate replaces the default one under the same name. -/
theorem C81_sqlite_partial (ops : List FOp) (hr : ∀ op ∈ ops, Real op) : Conforms Fits World.init ops (answers sqlite ops) :=
  conforms sqlite_faithful (fun _ _ h => ⟨h, fun _ _ _ => trivial⟩) ops hr (start_sim sqlite_faithful)

/-- **C81** over `pib-memory`, where in addition keys removed are the default keys. -/
theorem C81_memory_partial (ops : List FOp) (hr : ∀ op ∈ ops, Real op) : Conforms FitsMemory World.init ops (answers memory ops) :=
  conforms memory_faithful (fun _ _ h => ⟨h.1, fun _ k e => by subst e; exact h.2⟩) ops hr (start_sim memory_faithful)

/-! ## What the specification says -/

/-- No allowed outcome of a call is a failed assertion. -/
theorem C81_step_no_ub {w w' : World} {op : FOp} (h : Step w op .ub w') : False := by
  cases op <;> simp only [Step, onIdent, onKey, GivesIdent, GivesKey, GivesNames] at h <;> (repeat' split at h) <;> simp_all

/-- The calls of a user who keeps within `P`, who are answered by `outs`. -/
def Keeps (P : World → FOp → Prop) : World → List FOp → List Out → Prop
  | _, [], [] => True
  | w, op :: ops, out :: outs => P w op ∧ ∀ w', Step w op out w' → Keeps P w' ops outs
  | _, _, _ => False

theorem no_ub {P : World → FOp → Prop} : ∀ (ops : List FOp) (outs : List Out) (w : World), Conforms P w ops outs → Keeps P w ops outs →
    .ub ∉ outs
  | [], [], _, _, _ => by simp
  | op :: ops, out :: outs, w, hc, hk => by
    obtain ⟨w', h1, h2⟩ := hc hk.1
    have := no_ub ops outs w' h2 (hk.2 w' h1)
    simp only [List.mem_cons, not_or]
    refine ⟨?_, this⟩
    rintro rfl
    exact C81_step_no_ub h1
  | [], _ :: _, _, hc, _ => hc.elim
  | _ :: _, [], _, hc, _ => hc.elim

/-- **C81**: no such sequence of calls fails an assertion. -/
theorem C81_sqlite_no_assertion_partial (ops : List FOp) (hr : ∀ op ∈ ops, Real op)
    (hk : Keeps Fits World.init ops (answers sqlite ops)) : .ub ∉ answers sqlite ops :=
  no_ub ops _ _ (C81_sqlite_partial ops hr) hk

theorem C81_memory_no_assertion_partial (ops : List FOp) (hr : ∀ op ∈ ops, Real op)
    (hk : Keeps FitsMemory World.init ops (answers memory ops)) : .ub ∉ answers memory ops :=
  no_ub ops _ _ (C81_memory_partial ops hr) hk

/-- **C81**: a handle that has expired stays so, whatever is called. -/
theorem C81_expired {w w' : World} {op : FOp} {out : Out} {h : Nat} (hd : w.hs h = .dead) (hs : Step w op out w') : w'.hs h = .dead := by
  have issueDead : ∀ {hs : Nat → HState} {x : Nat} {r : Ref}, hs h = .dead → Issued hs x r → issue hs x r h = .dead := by
    intro hs x r h1 h2
    simp only [issue]
    rw [if_neg]
    · exact h1
    · rintro rfl; rcases h2.1 with h3 | h3 <;> rw [h1] at h3 <;> cases h3
  have killDead : ∀ (p : Ref → Bool), kill w.hs p h = .dead := fun p => by simp [kill, hd]
  cases op <;> simp only [Step, onIdent, onKey, GivesIdent, GivesKey, GivesNames] at hs <;> (repeat' split at hs) <;>
    first
    | (obtain ⟨x, -, h2, rfl⟩ := hs; exact issueDead hd h2)
    | (obtain ⟨x, -, h2, rfl⟩ := hs; exact issueDead (killDead _) h2)
    | (obtain ⟨-, rfl⟩ := hs; first | exact hd | exact killDead _)

/-- **C81**: a call on a handle that stands for nothing is refused, and changes nothing. -/
theorem C81_expired_refused {w w' : World} {h : Nat} {out : Out} (hd : w.hs h = .dead) :
    (∀ k bits, Step w (.addKey h bits k) out w' → out = .dead ∧ w' = w) ∧ (Step w (.getDefaultKey h) out w' → out = .dead ∧ w' = w) ∧
      (∀ c, Step w (.addCert h c) out w' → out = .dead ∧ w' = w) ∧ (Step w (.getDefaultCert h) out w' → out = .dead ∧ w' = w) := by
  simp only [Step, onIdent, onKey, hd]
  exact ⟨fun _ _ h => h, fun h => h, fun _ h => h, fun h => h⟩

/-- **C81**: two valid handles for the same identity or key are the same handle. -/
def OneHandle (w : World) : Prop := ∀ x y r, w.hs x = .alive r → w.hs y = .alive r → x = y

theorem C81_one_handle {w w' : World} {op : FOp} {out : Out} (h1 : OneHandle w) (hs : Step w op out w') : OneHandle w' := by
  have issueOne : ∀ {v : View} {hs : Nat → HState} {x : Nat} {r : Ref}, OneHandle ⟨v, hs⟩ → Issued hs x r → OneHandle ⟨v, issue hs x r⟩ := by
    intro v hs x r h1 h2 a c q ha hc
    simp only [issue] at ha hc
    split at ha <;> split at hc
    · simp_all
    · rename_i e1 e2; injection ha with ha; subst ha; rw [e1]; exact (h2.2 c hc).symm
    · rename_i e1 e2; injection hc with hc; subst hc; rw [e2]; exact h2.2 a ha
    · exact h1 a c q ha hc
  have killOne : ∀ (v : View) (p : Ref → Bool), OneHandle ⟨v, kill w.hs p⟩ := by
    intro v p a c q ha hc
    simp only [kill] at ha hc
    split at ha
    · split at ha
      · cases ha
      · rename_i r hr _
        injection ha with ha; subst ha
        split at hc
        · split at hc
          · cases hc
          · rename_i r' hr' _
            injection hc with hc; subst hc
            exact h1 _ _ _ hr hr'
        · rename_i hno; exact absurd hc (hno _)
    · rename_i hno; exact absurd ha (hno _)
  have same : ∀ v, OneHandle ⟨v, w.hs⟩ := fun v => h1
  cases op <;> simp only [Step, onIdent, onKey, GivesIdent, GivesKey, GivesNames] at hs <;> (repeat' split at hs) <;>
    first
    | (obtain ⟨x, -, h2, rfl⟩ := hs; exact issueOne (same _) h2)
    | (obtain ⟨x, -, h2, rfl⟩ := hs; exact issueOne (killOne _ _) h2)
    | (obtain ⟨-, rfl⟩ := hs; first | exact h1 | exact same _ | exact killOne _ _)

private theorem on_addKey {w w' : World} {h : Nat} {i k : PName} {bits : Bytes} {out : Out} (hh : w.hs h = .alive (.ident i))
    (hk : KeyName i k) (hs : Step w (.addKey h bits k) out w') : GivesKey (w.v.addKey i k bits) (kill w.hs (theKey k)) k out w' := by
  simp only [Step, onIdent, hh, if_pos hk] at hs
  exact hs

private theorem on_addCert {w w' : World} {h : Nat} {k : PName} {c : Crt} {out : Out} (hh : w.hs h = .alive (.key k))
    (hs : Step w (.addCert h c) out w') : (CertName k c.name ∧ w.v.key k = some c.pub ∧ out = .done ∧ w' = ⟨w.v.addCert c, w.hs⟩) ∨
      ((¬ (CertName k c.name ∧ w.v.key k = some c.pub)) ∧ out = .invalid ∧ w' = w) := by
  simp only [Step, onKey, hh] at hs
  split at hs
  · rename_i h; exact Or.inl ⟨h.1, h.2, hs⟩
  · rename_i h; exact Or.inr ⟨h, hs⟩

private theorem on_setDefaultNewCert {w w' : World} {h : Nat} {k : PName} {c : Crt} {out : Out} (hh : w.hs h = .alive (.key k))
    (hn : ¬ (CertName k c.name ∧ w.v.key k = some c.pub)) (hs : Step w (.setDefaultNewCert h c) out w') : out = .invalid := by
  simp only [Step, onKey, hh, if_neg hn] at hs
  exact hs.1

/-! ## What does not hold -/

private def wrongKey : List FOp :=
  [.addIdentity idA, .addKey 0 [7] kA1, .addCert 1 (crtOf kA1 1 [8] []), .setDefaultNewCert 1 (crtOf kA1 1 [8] [])]

private theorem wrongKey_real : ∀ op ∈ wrongKey, Real op := by
  intro op h
  simp only [wrongKey, List.mem_cons, List.not_mem_nil, or_false] at h
  rcases h with rfl | rfl | rfl | rfl
  · trivial
  · trivial
  · exact ⟨_, crt_name kA1_name _ _ _⟩
  · exact ⟨_, crt_name kA1_name _ _ _⟩

/-- A certificate for another public key is accepted by `setDefaultCertificate`, though `addCertificate` refuses it. -/
theorem C81_wrong_key_counterexample :
    answers sqlite wrongKey = [.ident 0, .key 1, .invalid, .done] ∧
      answers memory wrongKey = [.ident 0, .key 1, .invalid, .done] := by
  constructor <;> decide +kernel

/-- It replaces the public key stored: when the PIB is opened again the key has other bits. -/
theorem C81_bits_overwritten_counterexample :
    let db := (frun sqlite wrongKey (Front.start sqlite sqlite.init)).2.db
    (frun sqlite [.getIdentity idA, .getKey 0 kA1, .keyBits 1] (Front.start sqlite db)).1 = [.ident 0, .key 1, .bits [8]] := by
  decide +kernel

private theorem wrongKey_not : ¬ Conforms (fun _ _ => True) World.init wrongKey [.ident 0, .key 1, .invalid, .done] := by
  intro h
  obtain ⟨w1, h1, h⟩ := h trivial
  obtain ⟨w2, h2, h⟩ := h trivial
  obtain ⟨w3, h3, h⟩ := h trivial
  obtain ⟨w4, h4, -⟩ := h trivial
  obtain ⟨x, hx, -, rfl⟩ := h1
  injection hx with hx; subst hx
  obtain ⟨x, hx, -, rfl⟩ := on_addKey (i := idA) rfl kA1_name h2
  injection hx with hx; subst hx
  rcases on_addCert (k := kA1) rfl h3 with ⟨_, _, h, _⟩ | ⟨hn, _, rfl⟩
  · cases h
  · cases on_setDefaultNewCert (k := kA1) rfl hn h4

/-- setDefaultCertificate accepts a certificate with another public key. -/
theorem C81_sqlite_counterexample : ¬ C81_claim sqlite := by
  intro h
  have h := h wrongKey wrongKey_real
  rw [C81_wrong_key_counterexample.1] at h
  exact wrongKey_not h

/-- The default certificate that `getDefaultCertificate` gives is the one given before, after `addCertificate` has
replaced it. -/
theorem C81_stale_default_counterexample :
    answers sqlite [.addIdentity idA, .addKey 0 [7] kA1, .addCert 1 (crtOf kA1 1 [7] [1]), .getDefaultCert 1,
        .addCert 1 (crtOf kA1 1 [7] [2]), .getDefaultCert 1, .getCert 1 (crtOf kA1 1 [7] []).name] =
      [.ident 0, .key 1, .done, .cert (crtOf kA1 1 [7] [1]), .done, .cert (crtOf kA1 1 [7] [1]), .cert (crtOf kA1 1 [7] [2])] := by
  decide +kernel

/-- With `pib-memory`, after a key that is not the default has been removed, `getDefaultKey` fails; if the default key
had been asked for before, an assertion fails. -/
theorem C81_memory_default_key_counterexample :
    answers memory [.addIdentity idA, .addKey 0 [7] kA1, .addKey 0 [8] kA2, .removeKey 0 kA2, .getDefaultKey 0] =
        [.ident 0, .key 1, .key 2, .done, .refused] ∧
      answers memory [.addIdentity idA, .addKey 0 [7] kA1, .addKey 0 [8] kA2, .getDefaultKey 0, .removeKey 0 kA2, .getDefaultKey 0] =
        [.ident 0, .key 1, .key 2, .key 1, .done, .ub] := by
  constructor <;> decide +kernel

/-- With pib-memory, removing a key that is not the default one makes the next access to the default key undefined. -/
theorem C81_memory_counterexample : ¬ C81_claim memory := by
  intro h
  have h := h wrongKey wrongKey_real
  rw [C81_wrong_key_counterexample.2] at h
  exact wrongKey_not h

/-- An identity that exists already is not made the default by `addIdentity`, though there is no default. -/
theorem C81_add_existing_counterexample :
    answers sqlite [.addIdentity idA, .addIdentity idB, .removeIdentity idA, .addIdentity idB, .getDefaultIdentity] =
      [.ident 0, .ident 1, .done, .ident 1, .refused] := by
  decide +kernel

/-! ## Examples -/

private def sample : List FOp :=
  [.addIdentity idA, .addKey 0 [7] kA1, .addKey 0 [8] kA2, .addCert 1 (crtOf kA1 1 [7] []), .getDefaultKey 0, .getDefaultCert 1,
   .addKey 0 [9] kA1, .keyBits 1, .keyBits 3, .certs 3, .removeIdentity idA, .keyName 2, .identities]

example : answers sqlite sample = [.ident 0, .key 1, .key 2, .done, .key 1, .cert (crtOf kA1 1 [7] []), .key 3, .dead, .bits [9],
    .names [(crtOf kA1 1 [7] []).name], .done, .dead, .names []] := by
  decide +kernel

example : ∀ op ∈ sample, Real op := by
  intro op h
  simp only [sample, List.mem_cons, List.not_mem_nil, or_false] at h
  rcases h with rfl | rfl | rfl | rfl | rfl | rfl | rfl | rfl | rfl | rfl | rfl | rfl | rfl <;> first | trivial | exact ⟨_, crt_name kA1_name _ _ _⟩

example : Keeps FitsMemory World.init [.addIdentity idA, .addKey 0 [7] kA1, .addCert 1 (crtOf kA1 1 [7] []), .removeKey 0 kA1]
    (answers memory [.addIdentity idA, .addKey 0 [7] kA1, .addCert 1 (crtOf kA1 1 [7] []), .removeKey 0 kA1]) := by
  have e : answers memory [.addIdentity idA, .addKey 0 [7] kA1, .addCert 1 (crtOf kA1 1 [7] []), .removeKey 0 kA1] =
    [.ident 0, .key 1, .done, .done] := by decide +kernel
  rw [e]
  refine ⟨⟨trivial, trivial⟩, fun w1 h1 => ?_⟩
  obtain ⟨x, hx, -, rfl⟩ := h1
  injection hx with hx; subst hx
  refine ⟨⟨trivial, trivial⟩, fun w2 h2 => ?_⟩
  obtain ⟨x, hx, -, rfl⟩ := on_addKey (i := idA) rfl kA1_name h2
  injection hx with hx; subst hx
  have hk : ∀ v hs, (⟨v, issue hs 1 (.key kA1)⟩ : World).hs 1 = .alive (.key kA1) := fun _ _ => rfl
  refine ⟨⟨fun k hh => ?_, trivial⟩, fun w3 h3 => ?_⟩
  · rw [hk] at hh; injection hh with hh; injection hh with hh; subst hh
    rintro ⟨-, hd⟩
    exact absurd hd (by decide +kernel)
  · rcases on_addCert (k := kA1) rfl h3 with ⟨_, _, _, rfl⟩ | ⟨_, h, _⟩
    case inr => cases h
    refine ⟨⟨trivial, fun i hi => ?_⟩, fun _ _ => trivial⟩
    have := keyName_inj hi kA1_name
    subst this
    right
    decide +kernel

example : World.init.hs 3 = .unused ∧ kill (issue World.init.hs 3 (.key kA1)) (below idA) 3 = .dead := by
  refine ⟨rfl, ?_⟩
  decide +kernel

example : OneHandle World.init := fun x y r h => by cases h

end Ndn.Pib
