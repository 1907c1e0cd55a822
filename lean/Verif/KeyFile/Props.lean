import Verif.KeyFile.Lemmas
/-
C124–C127: private keys kept in files.
-/
namespace Ndn.KeyFile
open Spec

variable {K N I : Type}

/-! ### A small library, to show that the hypotheses can be met -/

/-- Keys are truth values, encoded in two octets; names are numbers. -/
def toy : Lib Bool Nat Nat where
  enc b := [cond b 1 2, 10]
  dec b := if b = [1, 10] ∨ b = [1] then some true else if b = [2, 10] ∨ b = [2] then some false else none
  enc8 pw k := cond k 1 2 :: pw
  dec8 pw b := if b = 1 :: pw then some true else if b = 2 :: pw then some false else none
  path n := List.replicate n 0
  shaName i k := 2 * i + cond k 1 0

theorem toy_lawful : Lawful toy where
  dec_enc k := by cases k <;> decide
  dec_cut k j := by
    match j with
    | 0 => cases k <;> decide
    | 1 => cases k <;> decide
    | j + 2 =>
      have : (toy.enc k).take (j + 2) = toy.enc k := List.take_of_length_le (by simp [toy])
      rw [this]; cases k <;> decide
  dec_nil := by decide
  dec8_enc8 pw k := by cases k <;> simp [toy]
  path_inj n m h := by
    have := congrArg List.length h
    simpa [toy] using this

def emptyDir : Dir := fun _ => none
def good : Env := ⟨false, 100, false, true⟩

/-! ### C124: what is stored -/

/-- The full claim: a key that was reported as created is in the store. -/
def C124_stored_claim : Prop := ∀ (K N I : Type) (L : Lib K N I), Lawful L → ∀ (l : List (Env × Op K N I)) (e : Env) (n : N) (k : K),
  (call L e (run L emptyDir l).1 (.create (.user n) k)).2 = .name n → Holds L (after (run L emptyDir l).1 (call L e (run L emptyDir l).1 (.create (.user n) k))) n k

/-- The disk is full: the file is empty, no exception is thrown, and the key that was just generated is lost when the program ends.
(`StreamSink` looks at the stream after writing to its buffer, but not after flushing it, and nobody else looks at the stream.) -/
theorem C124_stored_counterexample : ¬ C124_stored_claim := by
  intro h
  have := h Bool Nat Nat toy toy_lawful [] ⟨false, 0, false, true⟩ 3 true (by decide +kernel)
  rw [holds_iff] at this
  revert this
  decide +kernel

/-- The claim if there is space now, whatever happened before. -/
def C124_again_claim : Prop := ∀ (K N I : Type) (L : Lib K N I), Lawful L → ∀ (l : List (Env × Op K N I)) (e : Env) (n : N) (k : K),
  e.dirOk = true → (L.enc k).length ≤ e.space →
  (call L e (run L emptyDir l).1 (.create (.user n) k)).2 = .name n → Holds L (after (run L emptyDir l).1 (call L e (run L emptyDir l).1 (.create (.user n) k))) n k

/-- A full disk has left a file without a key, which its owner may not write to. Once there is space again a key of that name is
created: it is reported as created, but the file cannot be opened, nobody notices, and the key is not in the store. -/
theorem C124_again_counterexample : ¬ C124_again_claim := by
  intro h
  have := h Bool Nat Nat toy toy_lawful [(⟨false, 0, false, true⟩, .create (.user 3) true)] good 3 true rfl (by decide +kernel) (by decide +kernel)
  rw [holds_iff] at this
  revert this
  decide +kernel

/-- A key that is reported as created or imported is in the store afterwards if the disk has space for it and, unless the program
runs as the superuser, there was no file of its name that it may not write to. -/
theorem C124_stored_partial (L : Lib K N I) (hL : Lawful L) (e : Env) (d : Dir) (o : Op K N I) (n : N) (k : K)
    (hsp : (L.enc k).length ≤ e.space) (hw : e.root = true ∨ ∀ f, d (L.path n) = some f → f.ownerWrite = true)
    (hr : Reports L o (call L e d o).2 n k) : Holds L (after d (call L e d o)) n k := by
  rcases call_cases L e d o with ⟨_, h⟩ | ⟨n', k', hwr, h1, h2⟩ | ⟨n', rfl, _, h2⟩
  · exact absurd hr (h n k)
  · obtain ⟨rfl, rfl, hs⟩ := h2 n k hr
    have hok : (d (L.path n) = none ∧ e.dirOk = true) ∨ (∃ f, d (L.path n) = some f ∧ (e.root = true ∨ f.ownerWrite = true)) := by
      cases hd : d (L.path n) with
      | none =>
        refine .inl ⟨rfl, ?_⟩
        rcases save_cases L e d n k with ⟨_, _, h3⟩ | ⟨f, _, h3, _⟩ | ⟨d1, ho, _⟩
        · rw [h3] at hs; cases hs
        · rw [hd] at h3; cases h3
        · unfold openFile at ho
          rw [hd] at ho
          cases hdo : e.dirOk with
          | true => rfl
          | false => simp [hdo] at ho
      | some f =>
        refine .inr ⟨f, rfl, ?_⟩
        rcases hw with hw | hw
        · exact .inl hw
        · exact .inr (hw f hd)
    obtain ⟨_, _, s3⟩ := save_ok L e d n k hok hsp
    refine ⟨⟨L.enc k, false, false⟩, ?_, hL.dec_enc k⟩
    unfold after
    rw [h1]; exact s3
  · rw [h2] at hr
    exact absurd hr (fun h => h)

example : Reports toy (.create (.user 3) true) (call toy good emptyDir (.create (.user 3) true)).2 3 true ∧
    (toy.enc true).length ≤ good.space ∧ (∀ f, emptyDir (toy.path 3) = some f → f.ownerWrite = true) :=
  ⟨(by
    have : (call toy good emptyDir (.create (.user 3) true)).2 = .name 3 := by decide +kernel
    rw [this]; exact ⟨rfl, rfl⟩), (by decide +kernel), fun f h => by cases h⟩

/-- No call changes what the store holds under another name, in any state it passes through, whatever goes wrong. -/
theorem C124_isolated (L : Lib K N I) (hL : Lawful L) (e : Env) (d : Dir) (o : Op K N I) (d' : Dir) (hd : d' ∈ (call L e d o).1)
    (m : N) (hm : ∀ k, ¬ Writes L d o m k) (hdel : o ≠ .delete m) (k : K) : Holds L d' m k ↔ Holds L d m k := by
  rcases call_cases L e d o with ⟨h, _⟩ | ⟨n', k', hwr, h1, _⟩ | ⟨n', rfl, h1, _⟩
  · rw [h] at hd; rw [List.mem_singleton.mp hd]
  · rw [h1] at hd
    have hne : L.path m ≠ L.path n' := fun h => hm k' (hL.path_inj _ _ h ▸ hwr)
    exact holds_congr L ((save_way L e d n' k' d' hd).other _ hne) k
  · rw [h1] at hd
    have hne : L.path m ≠ L.path n' := fun h => hdel (by rw [hL.path_inj _ _ h])
    rcases List.mem_cons.mp hd with rfl | hd
    · exact holds_congr L (put_other _ _ hne) k
    · rw [List.mem_singleton.mp hd]

example : (∀ k, ¬ Writes toy emptyDir (.create (.user 3) true) 4 k) ∧ (Op.create (KeyId.user 3) true : Op Bool Nat Nat) ≠ .delete 4 :=
  ⟨(fun k h => by cases h.1), (fun h => by cases h)⟩

/-- A key that was deleted without an exception is not there any more, whatever the circumstances. -/
theorem C124_deleted (L : Lib K N I) (e : Env) (d : Dir) (n : N) (h : (call L e d (.delete n)).2 = .unit) :
    Free L (after d (call L e d (.delete n))) n := by
  rw [free_iff]
  simp only [call, delete] at h ⊢
  cases hf : d (L.path n) with
  | none =>
    unfold after loadKey
    simp [hf]
  | some f =>
    rw [hf] at h
    dsimp only at h ⊢
    split at h
    · rename_i hd
      unfold after loadKey
      rw [if_pos hd]
      show Option.bind (d.put (L.path n) none (L.path n)) _ = none
      rw [put_same]; rfl
    · cases h

example : (call toy good (run toy emptyDir [(good, .importKey 3 true)]).1 (.delete 3)).2 = .unit := by decide +kernel

/-- A call that throws leaves the directory as it was, whatever the circumstances. -/
theorem C124_failed (L : Lib K N I) (e : Env) (d : Dir) (o : Op K N I) (x : Err) (h : (call L e d o).2 = .throws x) : after d (call L e d o) = d := by
  have hsave : ∀ n k, (saveKey L e d n k).2 = false → (saveKey L e d n k).1.headD d = d := by
    intro n k hs
    rcases save_cases L e d n k with ⟨_, _, h3⟩ | ⟨g, _, h3, h4⟩ | ⟨d1, ho, h4⟩
    · rw [h3]; rfl
    · rw [h4] at hs; cases hs
    · rw [h4] at hs; cases hs
  cases o with
  | create id gen =>
    simp only [call, create] at h ⊢
    split at h
    · rename_i ht; rw [if_pos ht]; rfl
    · rename_i ht
      rw [if_neg ht]
      cases hn : chooseName L d gen id with
      | none => rfl
      | some n =>
        rw [hn] at h
        dsimp only at h
        split at h
        · cases h
        · rename_i hs
          exact hsave n gen (by simpa using hs)
  | importKey n k =>
    simp only [call, importKey] at h ⊢
    split at h
    · rename_i ht; rw [if_pos ht]; rfl
    · rename_i ht
      rw [if_neg ht]
      dsimp only at h
      split at h
      · cases h
      · rename_i hs
        exact hsave n k (by simpa using hs)
  | importPkcs8 n b pw =>
    simp only [call, importPkcs8] at h ⊢
    split at h
    · rename_i ht; rw [if_pos ht]; rfl
    · rename_i ht
      rw [if_neg ht]
      cases hk : L.dec8 pw b with
      | none => rfl
      | some k =>
        rw [hk] at h
        dsimp only at h
        split at h
        · cases h
        · rename_i hs
          exact hsave n k (by simpa using hs)
  | exportKey n pw => rfl
  | delete n =>
    simp only [call, delete] at h ⊢
    cases hf : d (L.path n) with
    | none => rfl
    | some f =>
      rw [hf] at h
      dsimp only at h ⊢
      split at h
      · cases h
      · rename_i hd
        rw [if_neg hd]; rfl
  | has n => rfl
  | handle n => rfl

example : (call toy ⟨false, 100, false, false⟩ emptyDir (.create (.user 3) true)).2 = .throws .backend := by decide +kernel

/-- Asking whether there is a key, asking for its handle and exporting it always agree, on what anybody finds in the directory; and
what is exported can be imported again under any free name, as the same key. -/
theorem C124_lookup (L : Lib K N I) (hL : Lawful L) (e : Env) (d : Dir) (n : N) :
    ((call L e d (.has n)).2 = .bool true ↔ ∃ k, Holds L d n k) ∧
    (∀ k, (call L e d (.handle n)).2 = .handle (some k) ↔ Holds L d n k) ∧
    (∀ k pw, Holds L d n k → (call L e d (.exportKey n pw)).2 = .octets (L.enc8 pw k)) ∧
    (∀ pw b, (call L e d (.exportKey n pw)).2 = .octets b → ∃ k, Holds L d n k ∧ ∀ k', L.dec8 pw b = some k' ↔ k' = k) := by
  refine ⟨?_, fun k => ?_, fun k pw h => ?_, fun pw b h => ?_⟩
  · show Out.bool (hasKey L d n) = .bool true ↔ _
    constructor
    · intro h
      cases hk : loadKey L d n with
      | none =>
        have : hasKey L d n = true := by injection h
        exact absurd hk ((has_iff L d n).mp this)
      | some k => exact ⟨k, (holds_iff L d n k).mpr hk⟩
    · rintro ⟨k, hk⟩
      rw [(has_iff L d n).mpr (by rw [(holds_iff L d n k).mp hk]; simp)]
  · show Out.handle (loadKey L d n) = .handle (some k) ↔ _
    rw [holds_iff]
    exact ⟨fun h => by injection h, fun h => by rw [h]⟩
  · show exportKey L d n pw = _
    unfold exportKey
    rw [(holds_iff L d n k).mp h]
  · have h' : exportKey L d n pw = .octets b := h
    unfold exportKey at h'
    cases hk : loadKey L d n with
    | none => rw [hk] at h'; cases h'
    | some k =>
      rw [hk] at h'
      injection h' with h'
      subst h'
      refine ⟨k, (holds_iff L d n k).mpr hk, fun k' => ?_⟩
      rw [hL.dec8_enc8]
      exact ⟨fun h => by cases h; rfl, fun h => by rw [h]⟩

/-- As long as files can be made and the disk has space, the store is a map: any number of calls one after another, on a store that was
empty, give the results that the map gives, and leave the keys in the directory that the map has (if no digest of a new public key is
that of a key in the store). What is missing: what happens when something goes wrong (above and below). -/
theorem C124_history_partial (L : Lib K N I) (hL : Lawful L) (l : List (Env × Op K N I))
    (he : ∀ x ∈ l, x.1.dirOk = true ∧ ∀ k, (L.enc k).length ≤ x.1.space)
    (hs : ∀ l1 e i k l2, l = l1 ++ (e, .create (.sha i) k) :: l2 → Free L (run L emptyDir l1).1 (L.shaName i k)) :
    ∃ s, DoesAll L (fun _ => none) (l.map (·.2)) s (run L emptyDir l).2 ∧ ∀ n k, s n = some k ↔ Holds L (run L emptyDir l).1 n k := by
  suffices H : ∀ l d, Clean L d → (∀ x ∈ l, x.1.dirOk = true ∧ ∀ k, (L.enc k).length ≤ x.1.space) →
      (∀ l1 e i k l2, l = l1 ++ (e, .create (.sha i) k) :: l2 → Free L (run L d l1).1 (L.shaName i k)) →
      DoesAll L (loadKey L d) (l.map (·.2)) (loadKey L (run L d l).1) (run L d l).2 by
    exact ⟨loadKey L (run L emptyDir l).1, H l emptyDir (fun n f h => by cases h) he hs, fun n k => (holds_iff L _ n k).symm⟩
  intro l
  induction l with
  | nil => intro d _ _ _; exact .nil _
  | cons x l ih =>
    obtain ⟨e, o⟩ := x
    intro d hc he hs
    have hsf : ShaFree L (loadKey L d) o := by
      cases o with
      | create id k =>
        cases id with
        | sha i => exact (free_iff L _ _).mp (hs [] e i k l rfl)
        | user n => trivial
        | random ns => trivial
      | _ => trivial
    obtain ⟨h1, h2⟩ := step_fine hL (he (e, o) List.mem_cons_self) hc o hsf
    refine .cons _ _ _ _ _ _ _ h1 (ih _ h2 (fun x hx => he x (List.mem_cons_of_mem _ hx)) ?_)
    intro l1 e' i k l2 hl
    exact hs ((e, o) :: l1) e' i k l2 (by rw [hl]; rfl)

/-- Keys with names of all three kinds, one of them deleted and made again. -/
example : (run toy emptyDir [(good, .create (.user 3) true), (good, .create (.sha 4) false), (good, .create (.random [3, 8, 9, 1]) true),
    (good, .importKey 3 false), (good, .delete 3), (good, .importKey 3 false), (good, .handle 3), (good, .exportKey 8 [7])]).2 =
    [.name 3, .name 8, .name 9, .throws .backend, .unit, .unit, .handle (some false), .octets [2, 7]] := by decide +kernel

/-! ### C125: crashes -/

/-- Wherever a call is stopped, each name has the key it had before or the one the call is to store (and no other), or none if the call
is to delete it. -/
theorem C125_atomic (L : Lib K N I) (hL : Lawful L) (e : Env) (d : Dir) (o : Op K N I) (hf : ∀ n k, Writes L d o n k → Free L d n)
    (d' : Dir) (hd : d' ∈ (call L e d o).1) (m : N) :
    (∀ k, Holds L d' m k ↔ Holds L d m k) ∨ (∃ k, Writes L d o m k ∧ ∀ k', Holds L d' m k' ↔ k' = k) ∨ (o = .delete m ∧ Free L d' m) := by
  rcases call_cases L e d o with ⟨h, _⟩ | ⟨n, k, hwr, h1, _⟩ | ⟨n, rfl, h1, _⟩
  · rw [h] at hd; rw [List.mem_singleton.mp hd]; exact .inl fun _ => Iff.rfl
  · rw [h1] at hd
    have hway := save_way L e d n k d' hd
    by_cases hm : L.path m = L.path n
    · have := hL.path_inj _ _ hm
      subst this
      have hfree := (free_iff L d m).mp (hf m k hwr)
      rcases hway.file with h2 | ⟨j, w, r, h2, _⟩ | ⟨f, h2, h3⟩
      · exact .inl (holds_congr L h2)
      · rcases hL.dec_cut k j with h3 | h3
        · refine .inl fun k' => ?_
          rw [holds_iff, holds_iff, hfree]
          unfold loadKey
          rw [h2]
          simp [h3]
        · refine .inr (.inl ⟨k, hwr, fun k' => ?_⟩)
          rw [holds_iff]
          unfold loadKey
          rw [h2]
          simp only [Option.bind_some, h3, Option.some.injEq]
          exact eq_comm
      · refine .inl fun k' => ?_
        rw [holds_iff, holds_iff]
        unfold loadKey
        rw [h2, h3]
        rfl
    · exact .inl (holds_congr L (hway.other _ hm))
  · rw [h1] at hd
    rcases List.mem_cons.mp hd with rfl | hd
    · by_cases hm : L.path m = L.path n
      · have := hL.path_inj _ _ hm
        subst this
        refine .inr (.inr ⟨rfl, (free_iff L _ _).mpr ?_⟩)
        unfold loadKey; rw [put_same]; rfl
      · exact .inl (holds_congr L (put_other _ _ hm))
    · rw [List.mem_singleton.mp hd]; exact .inl fun _ => Iff.rfl

example : (∀ n k, Writes toy emptyDir (.create (.user 3) true) n k → Free toy emptyDir n) ∧ (call toy good emptyDir (.create (.user 3) true)).1.length = 6 :=
  ⟨fun n k h => h.2.2, (by decide +kernel)⟩

/-- The full claim: after a crash in the middle of storing a key, the key is there or can be stored again. -/
def C125_retry_claim : Prop := ∀ (K N I : Type) (L : Lib K N I), Lawful L → ∀ (d : Dir) (e : Env) (o : Op K N I) (n : N) (k : K) (d' : Dir),
  Writes L d o n k → d (L.path n) = none → d' ∈ (call L e d o).1 → Holds L d' n k ∨
    ∀ e2 k2, e2.dirOk = true → (L.enc k2).length ≤ e2.space →
      (call L e2 d' (.importKey n k2)).2 = .unit ∧ Holds L (after d' (call L e2 d' (.importKey n k2))) n k2

/-- Not after a call on a full disk that has come to its end. -/
theorem C125_retry_counterexample : ¬ C125_retry_claim := by
  intro h
  have := h Bool Nat Nat toy toy_lawful emptyDir ⟨false, 0, false, true⟩ (.importKey 3 true) 3 true
    (after emptyDir (call toy ⟨false, 0, false, true⟩ emptyDir (.importKey 3 true)))
    ⟨rfl, rfl, (free_iff toy _ _).mpr (by decide +kernel)⟩ rfl (mem_of_after _ _ (call_ne _ _ _ _))
  rcases this with h | h
  · rw [holds_iff] at h
    revert h; decide +kernel
  · have := (h good true rfl (by decide +kernel)).2
    rw [holds_iff] at this
    revert this; decide +kernel

/-- The claim for a disk that has space for the key: what is missing is the full disk. -/
theorem C125_retry_partial (L : Lib K N I) (hL : Lawful L) (d : Dir) (e : Env) (o : Op K N I) (n : N) (k : K) (d' : Dir)
    (hw : Writes L d o n k) (hn : d (L.path n) = none) (hsp : (L.enc k).length ≤ e.space) (hd : d' ∈ (call L e d o).1) :
    Holds L d' n k ∨ ∀ e2 k2, e2.dirOk = true → (L.enc k2).length ≤ e2.space →
      (call L e2 d' (.importKey n k2)).2 = .unit ∧ Holds L (after d' (call L e2 d' (.importKey n k2))) n k2 := by
  have hfile : Holds L d' n k ∨ (loadKey L d' n = none ∧ (d' (L.path n) = none ∨ ∃ f, d' (L.path n) = some f ∧ f.ownerWrite = true)) := by
    have hnone : d' (L.path n) = none → Holds L d' n k ∨ (loadKey L d' n = none ∧ (d' (L.path n) = none ∨ ∃ f, d' (L.path n) = some f ∧ f.ownerWrite = true)) := by
      intro h; exact .inr ⟨by unfold loadKey; rw [h]; rfl, .inl h⟩
    rcases call_cases L e d o with ⟨h, _⟩ | ⟨n', k', hwr, h1, _⟩ | ⟨n', rfl, h1, _⟩
    · rw [h] at hd; rw [List.mem_singleton.mp hd] at hnone ⊢; exact hnone hn
    · rw [h1] at hd
      have hway := save_way L e d n' k' d' hd
      by_cases hm : L.path n = L.path n'
      · have := hL.path_inj _ _ hm
        subst this
        have := writes_unique L hw k' hwr
        subst this
        rcases hway.file with h2 | ⟨j, w, r, h2, h3⟩ | ⟨f, h2, h3⟩
        · rw [hn] at h2; exact hnone h2
        · rcases h3 with ⟨_, _, hj⟩ | ⟨h3, _⟩
          · rw [Nat.min_eq_right hsp] at hj
            rw [hj, List.take_length] at h2
            exact .inl ⟨_, h2, hL.dec_enc _⟩
          · rcases hL.dec_cut k' j with h4 | h4
            · refine .inr ⟨?_, .inr ⟨_, h2, (h3 hn).1⟩⟩
              unfold loadKey; rw [h2]; exact h4
            · exact .inl ⟨_, h2, h4⟩
        · rw [hn] at h2; cases h2
      · have := hway.other _ hm
        rw [hn] at this; exact hnone this
    · exact absurd hw (fun h => h)
  rcases hfile with h | ⟨hl, hf⟩
  · exact .inl h
  · refine .inr fun e2 k2 hdo hs2 => ?_
    have hok : (d' (L.path n) = none ∧ e2.dirOk = true) ∨ (∃ f, d' (L.path n) = some f ∧ (e2.root = true ∨ f.ownerWrite = true)) := by
      rcases hf with hf | ⟨f, hf, hw⟩
      · exact .inl ⟨hf, hdo⟩
      · exact .inr ⟨f, hf, .inr hw⟩
    obtain ⟨s1, _, s3⟩ := save_ok L e2 d' n k2 hok hs2
    have : call L e2 d' (.importKey n k2) = ((saveKey L e2 d' n k2).1, .unit) := by
      simp only [call, importKey, (has_false L d' n).mpr hl, if_false, Bool.false_eq_true, s1, if_true]
    rw [this]
    exact ⟨rfl, ⟨_, s3, hL.dec_enc k2⟩⟩

example : Writes toy emptyDir (.create (.user 3) true) 3 true ∧ emptyDir (toy.path 3) = none ∧ (toy.enc true).length ≤ good.space :=
  ⟨⟨rfl, rfl, (free_iff toy _ _).mpr (by decide +kernel)⟩, rfl, (by decide +kernel)⟩

/-! ### C126: who can read private keys -/

/-- The full claim: at no time can others read a private key. -/
def C126_private_claim : Prop := ∀ (K N I : Type) (L : Lib K N I), Lawful L → ∀ (d : Dir) (n : N) (k : K),
  Reach L (fun _ => True) emptyDir d → ¬ Exposed L d n k

/-- With the usual umask a new file can be read by everybody; the key is written to it and only then are the permissions changed. Between
the two, and for ever if the program is stopped there, others can read the private key. -/
theorem C126_private_counterexample : ¬ C126_private_claim := by
  intro h
  have hmem : ((call toy ⟨false, 100, true, true⟩ emptyDir (.create (.user 3) true)).1.tail.headD emptyDir) ∈
      (call toy ⟨false, 100, true, true⟩ emptyDir (.create (.user 3) true)).1 := by
    have hl : 2 ≤ (call toy ⟨false, 100, true, true⟩ emptyDir (.create (.user 3) true)).1.length := by decide +kernel
    cases hc : (call toy ⟨false, 100, true, true⟩ emptyDir (.create (.user 3) true)).1 with
    | nil => rw [hc] at hl; simp at hl
    | cons a t =>
      cases t with
      | nil => rw [hc] at hl; simp at hl
      | cons b t => simp
  refine h Bool Nat Nat toy toy_lawful _ 3 true (.step _ _ _ ⟨false, 100, true, true⟩ (.create (.user 3) true) (.here _) trivial hmem) ?_
  exact ⟨⟨[1, 10], true, true⟩, (by decide +kernel), (by decide +kernel), rfl⟩

/-- No key can be read by others, at any time and after any crashes, if the umask keeps others from reading new files. What is missing:
other umasks. -/
theorem C126_private_partial (L : Lib K N I) (d : Dir) (h : Reach L (fun e => e.newReadable = false) emptyDir d) (n : N) (k : K) : ¬ Exposed L d n k := by
  suffices H : ∀ p f, d p = some f → f.othersRead = false by
    rintro ⟨f, hf, _, hr⟩
    rw [H _ _ hf] at hr; cases hr
  induction h with
  | here => intro p f hf; cases hf
  | step d' d'' e o _ he hd ih =>
    intro p f hf
    rcases call_cases L e d' o with ⟨h, _⟩ | ⟨n', k', _, h1, _⟩ | ⟨n', rfl, h1, _⟩
    · rw [h] at hd; rw [List.mem_singleton.mp hd] at hf; exact ih p f hf
    · rw [h1] at hd
      have hway := save_way L e d' n' k' d'' hd
      by_cases hp : p = L.path n'
      · subst hp
        rcases hway.file with h2 | ⟨j, w, r, h2, h3⟩ | ⟨g, h2, h3⟩
        · rw [h2] at hf; exact ih _ f hf
        · rw [h2] at hf; cases hf
          rcases h3 with ⟨_, h3, _⟩ | ⟨h3, h4⟩
          · exact h3
          · cases hc : d' (L.path n') with
            | none => exact (h3 hc).2.trans he
            | some g => exact (h4 g hc).2.trans (ih _ g hc)
        · rw [h3] at hf; cases hf; rfl
      · rw [hway.other _ hp] at hf; exact ih p f hf
    · rw [h1] at hd
      rcases List.mem_cons.mp hd with rfl | hd
      · by_cases hp : p = L.path n'
        · subst hp; rw [put_same] at hf; cases hf
        · rw [put_other _ _ hp] at hf; exact ih p f hf
      · rw [List.mem_singleton.mp hd] at hf; exact ih p f hf

/-- Whatever the umask, between calls no key can be read by others, as long as no program was stopped in the middle of a call. -/
theorem C126_between (L : Lib K N I) (l : List (Env × Op K N I)) (n : N) (k : K) : ¬ Exposed L (run L emptyDir l).1 n k := by
  suffices H : ∀ l d, (∀ p f, d p = some f → f.othersRead = false) → ∀ p f, (run L d l).1 p = some f → f.othersRead = false by
    rintro ⟨f, hf, _, hr⟩
    rw [H l emptyDir (fun p f h => by cases h) _ _ hf] at hr; cases hr
  intro l
  induction l with
  | nil => intro d h; exact h
  | cons x l ih =>
    obtain ⟨e, o⟩ := x
    intro d h
    refine ih _ (fun p f hf => ?_)
    unfold after at hf
    rcases call_cases L e d o with ⟨h1, _⟩ | ⟨n', k', _, h1, _⟩ | ⟨n', rfl, h1, _⟩
    · rw [h1] at hf; exact h p f hf
    · rw [h1] at hf
      rcases save_cases L e d n' k' with ⟨_, _, h3⟩ | ⟨g, _, h3, h4⟩ | ⟨d1, ho, h4⟩
      · rw [h3] at hf; exact h p f hf
      · rw [h4] at hf
        change Dir.put _ _ _ p = _ at hf
        by_cases hp : p = L.path n'
        · subst hp; rw [put_same] at hf; cases hf; rfl
        · rw [put_other _ _ hp] at hf; exact h p f hf
      · rw [h4] at hf
        change Dir.put _ _ _ p = _ at hf
        by_cases hp : p = L.path n'
        · subst hp; rw [put_same] at hf; cases hf; rfl
        · obtain ⟨o1, w, r, o2, _⟩ := open_spec ho
          rw [put_other _ _ hp, (written_spec o2 _).1 p hp, o1 p hp] at hf
          exact h p f hf
    · rw [h1] at hf
      change Dir.put _ _ _ p = _ at hf
      by_cases hp : p = L.path n'
      · subst hp; rw [put_same] at hf; cases hf
      · rw [put_other _ _ hp] at hf; exact h p f hf

example : ∃ f, (run toy emptyDir [(⟨false, 100, true, true⟩, .create (.user 3) true)]).1 (toy.path 3) = some f ∧ toy.dec f.content = some true :=
  ⟨⟨[1, 10], false, false⟩, (by decide +kernel), (by decide +kernel)⟩

/-! ### C127: which key is used -/

variable [DecidableEq N]

/-- No handles, nothing in the directory. -/
def noTpms : Tpms K N := ⟨emptyDir, fun _ _ => none⟩

/-- The full claim: what a `Tpm` signs with is what the store holds under that name. -/
def C127_used_claim : Prop := ∀ (L : Lib Bool Nat Nat), Lawful L → ∀ (l : List (Nat × Env × TOp Bool Nat Nat)),
  (∀ x ∈ l, x.2.1.dirOk = true ∧ ∀ k, (L.enc k).length ≤ x.2.1.space) → ∀ e t n k,
  (tcall L (trun L noTpms l) e t (.use n)).2 = .handle (some k) → Holds L (trun L noTpms l).dir n k

/-- A key is deleted through one key chain; another one, which has made or used it, goes on signing with it. -/
theorem C127_used_counterexample : ¬ C127_used_claim := by
  intro h
  have := h toy toy_lawful [(0, good, .create (.user 3) true), (1, good, .delete 3)]
    (fun x hx => by
      have : x.2.1 = good := by
        rcases List.mem_cons.mp hx with rfl | hx
        · rfl
        · rw [List.mem_singleton.mp hx]
      rw [this]
      exact ⟨rfl, fun k => by cases k <;> decide⟩) good 0 3 true (by decide +kernel)
  rw [holds_iff] at this
  revert this; decide +kernel

/-- If one `Tpm` object does everything, or none deletes keys, then what is used is what the store holds, and a key is used if and only if
the store holds one (as long as nothing goes wrong with the files and no digest of a new public key is that of a key in the store). -/
theorem C127_used_partial (L : Lib K N I) (hL : Lawful L) (l : List (Nat × Env × TOp K N I))
    (he : ∀ x ∈ l, x.2.1.dirOk = true ∧ ∀ k, (L.enc k).length ≤ x.2.1.space)
    (hs : ∀ l1 t e i k l2, l = l1 ++ (t, e, .create (.sha i) k) :: l2 → Free L (trun L noTpms l1).dir (L.shaName i k))
    (hone : (∃ t0, ∀ x ∈ l, x.1 = t0) ∨ (∀ x ∈ l, ∀ n, x.2.2 ≠ .delete n)) (e : Env) (t : Nat) (n : N) :
    ∃ r, (tcall L (trun L noTpms l) e t (.use n)).2 = .handle r ∧ ∀ k, r = some k ↔ Holds L (trun L noTpms l).dir n k := by
  suffices H : ∀ l S, Clean L S.dir → (∀ x ∈ l, x.2.1.dirOk = true ∧ ∀ k, (L.enc k).length ≤ x.2.1.space) →
      (∀ l1 t e i k l2, l = l1 ++ (t, e, .create (.sha i) k) :: l2 → Free L (trun L S l1).dir (L.shaName i k)) →
      ∀ Q : Nat → Prop, ((∃ t0, (∀ x ∈ l, x.1 = t0) ∧ ∀ t, Q t → t = t0) ∨ (∀ x ∈ l, ∀ n, x.2.2 ≠ .delete n)) →
      (∀ x ∈ l, Q x.1) → (∀ t n k, S.kept t n = some k → loadKey L S.dir n = some k ∧ Q t) →
      (∀ t n k, (trun L S l).kept t n = some k → loadKey L (trun L S l).dir n = some k ∧ Q t) by
    have hk : ∀ t n k, (trun L noTpms l).kept t n = some k → loadKey L (trun L noTpms l).dir n = some k := by
      intro t n k hk
      rcases hone with ⟨t0, h0⟩ | h0
      · exact (H l noTpms (fun n f h => by cases h) he hs (· = t0) (.inl ⟨t0, h0, fun t h => h⟩) h0 (fun t n k h => by cases h) t n k hk).1
      · exact (H l noTpms (fun n f h => by cases h) he hs (fun _ => True) (.inr h0) (fun _ _ => trivial) (fun t n k h => by cases h) t n k hk).1
    refine ⟨loadKey L (trun L noTpms l).dir n, ?_, fun k => (holds_iff L _ n k).symm⟩
    simp only [tcall]
    cases hc : (trun L noTpms l).kept t n with
    | some k => rw [hk t n k hc]
    | none => cases loadKey L (trun L noTpms l).dir n <;> rfl
  intro l
  induction l with
  | nil => intro S _ _ _ Q _ _ h; exact h
  | cons x l ih =>
    obtain ⟨t, e, o⟩ := x
    intro S hc he hs Q h1 h2 h3
    have he0 := he _ List.mem_cons_self
    have h1' : (∃ t0, (∀ x ∈ l, x.1 = t0) ∧ ∀ t, Q t → t = t0) ∨ (∀ x ∈ l, ∀ n, x.2.2 ≠ .delete n) := by
      rcases h1 with ⟨t0, h4, h5⟩ | h4
      · exact .inl ⟨t0, fun x hx => h4 x (List.mem_cons_of_mem _ hx), h5⟩
      · exact .inr fun x hx => h4 x (List.mem_cons_of_mem _ hx)
    suffices hstep : Clean L (tcall L S e t o).1.dir ∧
        ∀ t' n k, (tcall L S e t o).1.kept t' n = some k → loadKey L (tcall L S e t o).1.dir n = some k ∧ Q t' from
      ih _ hstep.1 (fun x hx => he x (List.mem_cons_of_mem _ hx))
        (fun l1 t' e' i k l2 hl => hs ((t, e, o) :: l1) t' e' i k l2 (by rw [hl]; rfl)) Q h1' (fun x hx => h2 x (List.mem_cons_of_mem _ hx)) hstep.2
    have hQ : Q t := h2 (t, e, o) List.mem_cons_self
    cases o with
    | create id gen =>
      have hsf : ShaFree L (loadKey L S.dir) (.create id gen) := by
        cases id with
        | sha i => exact (free_iff L _ _).mp (hs [] t e i gen l rfl)
        | user n => trivial
        | random ns => trivial
      obtain ⟨s1, s2⟩ := step_fine hL he0 hc (.create id gen) hsf
      change Does L _ _ (loadKey L (after S.dir (create L e S.dir id gen))) (create L e S.dir id gen).2 at s1
      change Clean L (after S.dir (create L e S.dir id gen)) at s2
      simp only [tcall]
      generalize after S.dir (create L e S.dir id gen) = d2 at s1 s2 ⊢
      generalize (create L e S.dir id gen).2 = out at s1 ⊢
      have key : ∀ (n : N) (s' : N → Option K), s' n = some gen → (∀ m, m ≠ n → s' m = loadKey L S.dir m) → loadKey L S.dir n = none →
          ∀ t' m k, keep S.kept t n (some gen) t' m = some k → s' m = some k ∧ Q t' := by
        intro n s' h4 h5 h6 t' m k hk
        unfold keep at hk
        split at hk
        · rename_i hh
          rw [hh.1, hh.2, h4, hk]
          exact ⟨rfl, hQ⟩
        · by_cases hm : m = n
          · subst hm
            have := (h3 t' m k hk).1
            rw [h6] at this; cases this
          · rw [h5 m hm]; exact h3 t' m k hk
      generalize hs' : loadKey L d2 = s' at s1
      cases s1 with
      | createUser _ n k h4 h5 h6 =>
        refine ⟨s2, ?_⟩
        rw [hs']
        exact key _ _ h5 h6 h4
      | createTaken n k k' h4 =>
        refine ⟨s2, ?_⟩
        rw [hs']
        exact h3
      | createSha _ i k h5 h6 =>
        refine ⟨s2, ?_⟩
        rw [hs']
        exact key _ _ h5 h6 hsf
      | createRandom _ l1 n l2 k h4 h5 h6 h7 =>
        refine ⟨s2, ?_⟩
        rw [hs']
        exact key _ _ h6 h7 h5
      | createNone ns k h4 =>
        refine ⟨s2, ?_⟩
        rw [hs']
        exact h3
    | importKey n k =>
      obtain ⟨s1, s2⟩ := step_fine hL he0 hc (.importKey n k) trivial
      refine ⟨s2, fun t' m k' hk => ?_⟩
      have hk' := h3 t' m k' hk
      refine ⟨?_, hk'.2⟩
      show loadKey L (after S.dir (importKey L e S.dir n k)) m = some k'
      change Does L _ _ (loadKey L (after S.dir (importKey L e S.dir n k))) _ at s1
      generalize hs' : loadKey L (after S.dir (importKey L e S.dir n k)) = s' at s1 ⊢
      generalize (call L (t, e, TOp.importKey n k).snd.fst S.dir (Op.importKey n k)).2 = out at s1
      cases s1 with
      | «import» _ _ _ h4 h5 h6 =>
        by_cases hm : m = n
        · subst hm; rw [h4] at hk'; cases hk'.1
        · rw [h6 m hm]; exact hk'.1
      | importTaken _ _ k2 h4 => exact hk'.1
    | delete n =>
      obtain ⟨s1, s2⟩ := step_fine hL he0 hc (.delete n) trivial
      refine ⟨s2, fun t' m k' hk => ?_⟩
      rcases h1 with ⟨t0, h4, h5⟩ | h4
      · change keep S.kept t n none t' m = some k' at hk
        unfold keep at hk
        split at hk
        · cases hk
        · rename_i hne
          have hk' := h3 t' m k' hk
          refine ⟨?_, hk'.2⟩
          have hm : m ≠ n := fun h => hne ⟨(h5 t' hk'.2).trans (h5 t hQ).symm, h⟩
          show loadKey L (after S.dir (delete L e S.dir n)) m = some k'
          change Does L _ _ (loadKey L (after S.dir (delete L e S.dir n))) _ at s1
          generalize hs' : loadKey L (after S.dir (delete L e S.dir n)) = s' at s1 ⊢
          generalize (call L (t, e, TOp.delete n).snd.fst S.dir (Op.delete n)).2 = out at s1
          cases s1 with
          | delete _ _ h6 h7 => rw [h7 m hm]; exact hk'.1
      · exact absurd rfl (h4 _ List.mem_cons_self n)
    | use n =>
      simp only [tcall]
      cases hk0 : S.kept t n with
      | some k => exact ⟨hc, h3⟩
      | none =>
        cases hl : loadKey L S.dir n with
        | none => exact ⟨hc, h3⟩
        | some k =>
          refine ⟨hc, fun t' m k' hk => ?_⟩
          change keep S.kept t n (some k) t' m = some k' at hk
          unfold keep at hk
          split at hk
          · rename_i hh
            cases hk
            rw [hh.1, hh.2]
            exact ⟨hl, hQ⟩
          · exact h3 t' m k' hk

/-- One object makes, uses and deletes a key and makes another of the same name. -/
example : (tcall toy (trun toy noTpms [(0, good, .create (.user 3) true), (0, good, .use 3), (0, good, .delete 3), (0, good, .importKey 3 false)])
    good 0 (.use 3)).2 = .handle (some false) := by decide +kernel

end Ndn.KeyFile
