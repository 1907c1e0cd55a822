import Verif.KeyFile.Spec
/-
Lemmas on the key store in files.
-/
namespace Ndn.KeyFile
open Spec

variable {K N I : Type} (L : Lib K N I)

theorem put_same (d : Dir) (p : Bytes) (f : Option File) : d.put p f p = f := by simp [Dir.put]
theorem put_other (d : Dir) {p q : Bytes} (f : Option File) (h : q ≠ p) : d.put p f q = d q := by simp [Dir.put, h]

/-- What a state on the way of saving a key is, at its file and elsewhere. -/
structure OnTheWay (e : Env) (d : Dir) (p b : Bytes) (d' : Dir) : Prop where
  other : ∀ q, q ≠ p → d' q = d q
  file : d' p = d p ∨ (∃ j w r, d' p = some ⟨b.take j, w, r⟩ ∧
    ((w = false ∧ r = false ∧ (j = min e.space b.length)) ∨
     ((d p = none → w = true ∧ r = e.newReadable) ∧ (∀ f, d p = some f → w = f.ownerWrite ∧ r = f.othersRead))))
    ∨ (∃ f, d p = some f ∧ d' p = some { f with ownerWrite := false, othersRead := false })

theorem open_spec {e : Env} {d d1 : Dir} {p : Bytes} (h : openFile e d p = some d1) :
    (∀ q, q ≠ p → d1 q = d q) ∧ ∃ w r, d1 p = some ⟨[], w, r⟩ ∧ (d p = none → w = true ∧ r = e.newReadable) ∧
      (∀ f, d p = some f → w = f.ownerWrite ∧ r = f.othersRead) := by
  unfold openFile at h
  split at h
  · rename_i f hf
    split at h
    · cases h
      refine ⟨fun q hq => put_other _ _ hq, f.ownerWrite, f.othersRead, put_same _ _ _, fun hn => ?_, fun f' h' => ?_⟩
      · rw [hf] at hn; cases hn
      · rw [hf] at h'; cases h'; exact ⟨rfl, rfl⟩
    · cases h
  · rename_i hn
    split at h
    · cases h
      refine ⟨fun q hq => put_other _ _ hq, true, e.newReadable, put_same _ _ _, fun _ => ⟨rfl, rfl⟩, fun f' h' => ?_⟩
      rw [hn] at h'; cases h'
    · cases h

theorem written_spec {d1 : Dir} {p b : Bytes} {w r : Bool} {c : Bytes} (h : d1 p = some ⟨c, w, r⟩) (j : Nat) :
    (∀ q, q ≠ p → written d1 p b j q = d1 q) ∧ written d1 p b j p = some ⟨b.take j, w, r⟩ := by
  unfold written
  rw [h]
  exact ⟨fun q hq => put_other _ _ hq, put_same _ _ _⟩

/-- The three ways of saving. -/
theorem save_cases (e : Env) (d : Dir) (n : N) (k : K) :
    (openFile e d (L.path n) = none ∧ d (L.path n) = none ∧ saveKey L e d n k = ([d], false)) ∨
    (∃ f, openFile e d (L.path n) = none ∧ d (L.path n) = some f ∧
      saveKey L e d n k = ([d.put (L.path n) (some { f with ownerWrite := false, othersRead := false }), d], true)) ∨
    (∃ d1, openFile e d (L.path n) = some d1 ∧
      saveKey L e d n k =
        ((written d1 (L.path n) (L.enc k) (min e.space (L.enc k).length)).put (L.path n)
            (some ⟨(L.enc k).take (min e.space (L.enc k).length), false, false⟩) ::
          (((List.range (min e.space (L.enc k).length + 1)).map (written d1 (L.path n) (L.enc k))).reverse ++ [d1, d]), true)) := by
  cases ho : openFile e d (L.path n) with
  | none =>
    cases hd : d (L.path n) with
    | none =>
      refine .inl ⟨rfl, rfl, ?_⟩
      simp only [saveKey, ho, restrict, hd]
    | some f =>
      refine .inr (.inl ⟨f, rfl, rfl, ?_⟩)
      simp only [saveKey, ho, restrict, hd]
  | some d1 =>
    refine .inr (.inr ⟨d1, rfl, ?_⟩)
    obtain ⟨_, w, r, h1, _⟩ := open_spec ho
    have h2 := (written_spec (b := L.enc k) h1 (min e.space (L.enc k).length)).2
    simp only [saveKey, ho, restrict, h2]

theorem save_way (e : Env) (d : Dir) (n : N) (k : K) (d' : Dir) (h : d' ∈ (saveKey L e d n k).1) : OnTheWay e d (L.path n) (L.enc k) d' := by
  have self : OnTheWay e d (L.path n) (L.enc k) d := ⟨fun _ _ => rfl, .inl rfl⟩
  rcases save_cases L e d n k with ⟨_, _, hs⟩ | ⟨f, _, hf, hs⟩ | ⟨d1, ho, hs⟩
  · rw [hs] at h
    rw [List.mem_singleton.mp h]; exact self
  · rw [hs] at h
    rcases List.mem_cons.mp h with rfl | h
    · exact ⟨fun q hq => put_other _ _ hq, .inr (.inr ⟨f, hf, put_same _ _ _⟩)⟩
    · rw [List.mem_singleton.mp h]; exact self
  · rw [hs] at h
    obtain ⟨o1, w, r, o2, o3, o4⟩ := open_spec ho
    rcases List.mem_cons.mp h with rfl | h
    · refine ⟨fun q hq => ?_, .inr (.inl ⟨_, _, _, put_same _ _ _, .inl ⟨rfl, rfl, rfl⟩⟩)⟩
      rw [put_other _ _ hq, (written_spec o2 _).1 q hq, o1 q hq]
    · rcases List.mem_append.mp h with h | h
      · obtain ⟨j, _, rfl⟩ := List.mem_map.mp (List.mem_reverse.mp h)
        refine ⟨fun q hq => ?_, .inr (.inl ⟨j, w, r, (written_spec o2 _).2, .inr ⟨o3, o4⟩⟩)⟩
        rw [(written_spec o2 _).1 q hq, o1 q hq]
      · rcases List.mem_cons.mp h with rfl | h
        · exact ⟨o1, .inr (.inl ⟨0, w, r, by rw [o2]; simp, .inr ⟨o3, o4⟩⟩)⟩
        · rw [List.mem_singleton.mp h]; exact self

theorem save_head (e : Env) (d : Dir) (n : N) (k : K) : ∃ d' t, (saveKey L e d n k).1 = d' :: t ∧ d' ∈ (saveKey L e d n k).1 := by
  rcases save_cases L e d n k with ⟨_, _, hs⟩ | ⟨f, _, hf, hs⟩ | ⟨d1, ho, hs⟩ <;> rw [hs] <;> exact ⟨_, _, rfl, List.mem_cons_self⟩

/-- Saving succeeds if the file can be opened and there is space. -/
theorem save_ok (e : Env) (d : Dir) (n : N) (k : K) (hd : (d (L.path n) = none ∧ e.dirOk = true) ∨ (∃ f, d (L.path n) = some f ∧ (e.root = true ∨ f.ownerWrite = true)))
    (hsp : (L.enc k).length ≤ e.space) :
    (saveKey L e d n k).2 = true ∧ (∀ q, q ≠ L.path n → (saveKey L e d n k).1.headD d q = d q) ∧
      (saveKey L e d n k).1.headD d (L.path n) = some ⟨L.enc k, false, false⟩ := by
  rcases save_cases L e d n k with ⟨h1, h2, hs⟩ | ⟨f, h1, h2, hs⟩ | ⟨d1, ho, hs⟩
  · exfalso
    rcases hd with ⟨_, hok⟩ | ⟨f, hf, _⟩
    · unfold openFile at h1; rw [h2] at h1; simp [hok] at h1
    · rw [h2] at hf; cases hf
  · exfalso
    rcases hd with ⟨h, _⟩ | ⟨f', hf, hw⟩
    · rw [h2] at h; cases h
    · rw [h2] at hf; cases hf
      unfold openFile at h1; rw [h2] at h1
      rcases hw with hw | hw <;> simp [hw] at h1
  · obtain ⟨o1, w, r, o2, _⟩ := open_spec ho
    rw [hs, Nat.min_eq_right hsp, List.take_length]
    refine ⟨rfl, fun q hq => ?_, put_same _ _ _⟩
    show Dir.put _ _ _ q = _
    rw [put_other _ _ hq, (written_spec o2 _).1 q hq, o1 q hq]

theorem load_of {d d' : Dir} {n : N} (h : d' (L.path n) = d (L.path n)) : loadKey L d' n = loadKey L d n := by
  unfold loadKey; rw [h]

theorem has_iff (d : Dir) (n : N) : hasKey L d n = true ↔ loadKey L d n ≠ none := by
  unfold hasKey; cases loadKey L d n <;> simp

theorem has_false (d : Dir) (n : N) : hasKey L d n = false ↔ loadKey L d n = none := by
  unfold hasKey; cases loadKey L d n <;> simp

theorem holds_iff (d : Dir) (n : N) (k : K) : Holds L d n k ↔ loadKey L d n = some k := by
  unfold Holds loadKey
  cases d (L.path n) with
  | none => simp
  | some f => simp

/-- Every key file holds a key. -/
def Clean (d : Dir) : Prop := ∀ n f, d (L.path n) = some f → L.dec f.content ≠ none

theorem clean_none {d : Dir} (h : Clean L d) {n : N} (hn : loadKey L d n = none) : d (L.path n) = none := by
  cases hd : d (L.path n) with
  | none => rfl
  | some f =>
    unfold loadKey at hn
    rw [hd] at hn
    exact absurd hn (h n f hd)

/-- Circumstances in which nothing goes wrong. -/
def Fine (e : Env) : Prop := e.dirOk = true ∧ ∀ k, (L.enc k).length ≤ e.space

theorem save_fine {L : Lib K N I} (hL : Lawful L) {e : Env} (he : Fine L e) {d : Dir} (hc : Clean L d) {n : N} (hn : loadKey L d n = none) (k : K) :
    (saveKey L e d n k).2 = true ∧ loadKey L ((saveKey L e d n k).1.headD d) n = some k ∧
      (∀ m, m ≠ n → loadKey L ((saveKey L e d n k).1.headD d) m = loadKey L d m) ∧ Clean L ((saveKey L e d n k).1.headD d) := by
  obtain ⟨s1, s2, s3⟩ := save_ok L e d n k (.inl ⟨clean_none L hc hn, he.1⟩) (he.2 k)
  refine ⟨s1, ?_, fun m hm => ?_, fun m f hf => ?_⟩
  · unfold loadKey; rw [s3]; exact hL.dec_enc k
  · exact load_of L (s2 _ (fun h => hm (hL.path_inj _ _ h)))
  · by_cases hm : L.path m = L.path n
    · rw [hm, s3] at hf; cases hf
      rw [hL.dec_enc]; simp
    · rw [s2 _ hm] at hf; exact hc m f hf

theorem free_iff (d : Dir) (n : N) : Free L d n ↔ loadKey L d n = none := by
  unfold Free
  constructor
  · intro h
    cases hk : loadKey L d n with
    | none => rfl
    | some k => exact absurd ((holds_iff L d n k).mpr hk) (h k)
  · intro h k hk
    rw [(holds_iff L d n k).mp hk] at h; cases h

theorem choose_writes {d : Dir} {id : KeyId N I} {gen : K} {n : N}
    (ht : taken L d id = false) (h : chooseName L d gen id = some n) : Writes L d (.create id gen) n gen := by
  cases id with
  | user m =>
    simp only [chooseName, Option.some.injEq] at h
    subst h
    exact ⟨rfl, rfl, (free_iff L d m).mpr ((has_false L d m).mp ht)⟩
  | sha i =>
    simp only [chooseName, Option.some.injEq] at h
    exact ⟨h, rfl⟩
  | random ns =>
    simp only [chooseName] at h
    have h1 := List.find?_some h
    have h2 := List.mem_of_find?_eq_some h
    refine ⟨h2, rfl, (free_iff L d n).mpr ((has_false L d n).mp ?_)⟩
    simpa using h1

/-- What the states of a call are. -/
theorem call_cases (e : Env) (d : Dir) (o : Op K N I) :
    ((call L e d o).1 = [d] ∧ ∀ n k, ¬ Reports L o (call L e d o).2 n k) ∨
    (∃ n k, Writes L d o n k ∧ (call L e d o).1 = (saveKey L e d n k).1 ∧
      (∀ n' k', Reports L o (call L e d o).2 n' k' → n' = n ∧ k' = k ∧ (saveKey L e d n k).2 = true)) ∨
    (∃ n, o = .delete n ∧ (call L e d o).1 = [d.put (L.path n) none, d] ∧ (call L e d o).2 = .unit) := by
  cases o with
  | create id gen =>
    simp only [call, create]
    by_cases ht : taken L d id = true
    · simp only [ht, if_true]
      exact .inl ⟨trivial, fun n k h => h⟩
    · simp only [ht, if_false, Bool.false_eq_true]
      cases hn : chooseName L d gen id with
      | none => exact .inl ⟨rfl, fun n k h => h⟩
      | some n =>
        refine .inr (.inl ⟨n, gen, choose_writes L (by simpa using ht) hn, rfl, fun n' k' h => ?_⟩)
        dsimp only at h
        split at h
        · rename_i h2
          exact ⟨h.1.symm, h.2.symm, h2⟩
        · exact absurd h (fun h => h)
  | importKey n k =>
    simp only [call, importKey]
    split
    · exact .inl ⟨rfl, fun n k h => h⟩
    · rename_i ht
      refine .inr (.inl ⟨n, k, ⟨rfl, rfl, (free_iff L d n).mpr ((has_false L d n).mp (by simpa using ht))⟩, rfl, fun n' k' h => ?_⟩)
      dsimp only at h
      split at h
      · rename_i h2
        exact ⟨h.1.symm, h.2.symm, h2⟩
      · exact absurd h id
  | importPkcs8 n b pw =>
    simp only [call, importPkcs8]
    split
    · exact .inl ⟨rfl, fun n k h => h⟩
    · rename_i ht
      split
      · exact .inl ⟨rfl, fun n k h => h⟩
      · rename_i k hk
        refine .inr (.inl ⟨n, k, ⟨rfl, hk, (free_iff L d n).mpr ((has_false L d n).mp (by simpa using ht))⟩, rfl, fun n' k' h => ?_⟩)
        dsimp only at h
        split at h
        · rename_i h2
          have := h.2
          rw [hk] at this; cases this
          exact ⟨h.1.symm, rfl, h2⟩
        · exact absurd h id
  | exportKey n pw =>
    simp only [call]
    refine .inl ⟨trivial, fun n k h => ?_⟩
    revert h; cases (exportKey L d _ pw) <;> exact fun h => h
  | delete n =>
    simp only [call, delete]
    cases d (L.path n) with
    | none => exact .inl ⟨by simp, fun n k h => h⟩
    | some f =>
      dsimp only
      split
      · exact .inr (.inr ⟨n, rfl, rfl, rfl⟩)
      · exact .inl ⟨rfl, fun n k h => h⟩
  | has n => exact .inl ⟨rfl, fun n k h => h⟩
  | handle n => exact .inl ⟨rfl, fun n k h => h⟩

theorem writes_unique {d : Dir} {o : Op K N I} {n : N} {k : K} (h : Writes L d o n k) : ∀ k', Writes L d o n k' → k' = k := by
  intro k' h'
  cases o with
  | create id g => cases id <;> simp only [Writes] at h h' <;> simp_all
  | importKey m g => simp only [Writes] at h h'; simp_all
  | importPkcs8 m b pw =>
    simp only [Writes] at h h'
    have := h.2.1.symm.trans h'.2.1
    cases this; rfl
  | _ => exact absurd h id

theorem holds_congr {d d' : Dir} {n : N} (h : d' (L.path n) = d (L.path n)) (k : K) : Holds L d' n k ↔ Holds L d n k := by
  unfold Holds; rw [h]

theorem mem_of_after (d : Dir) (r : List Dir × Out K N) (h : r.1 ≠ []) : after d r ∈ r.1 := by
  unfold after
  cases hr : r.1 with
  | nil => exact absurd hr h
  | cons a t => exact List.mem_cons_self

theorem call_ne (e : Env) (d : Dir) (o : Op K N I) : (call L e d o).1 ≠ [] := by
  rcases call_cases L e d o with ⟨h, _⟩ | ⟨n, k, _, h, _⟩ | ⟨n, _, h, _⟩
  · rw [h]; simp
  · obtain ⟨d', t, ht, _⟩ := save_head L e d n k
    rw [h, ht]; simp
  · rw [h]; simp

theorem ite_fst {α β : Type} (c : Prop) [Decidable c] (x y : α × β) : (if c then x else y).1 = if c then x.1 else y.1 := by split <;> rfl

/-- A call when nothing goes wrong does what the map does. -/
theorem step_fine {L : Lib K N I} (hL : Lawful L) {e : Env} (he : Fine L e) {d : Dir} (hc : Clean L d) (o : Op K N I) (hs : ShaFree L (loadKey L d) o) :
    Does L (loadKey L d) o (loadKey L (after d (call L e d o))) (call L e d o).2 ∧ Clean L (after d (call L e d o)) := by
  cases o with
  | create id gen =>
    cases ht : taken L d id with
    | true =>
      cases id with
      | user n =>
        have : call L e d (.create (.user n) gen) = ([d], .throws .backend) := by simp only [call, create, ht, if_true]
        rw [this]
        obtain ⟨k', hk'⟩ := Option.ne_none_iff_exists'.mp ((has_iff L d n).mp ht)
        exact ⟨.createTaken _ _ _ k' hk', hc⟩
      | sha i => cases ht
      | random ns => cases ht
    | false =>
      cases hn : chooseName L d gen id with
      | none =>
        have : call L e d (.create id gen) = ([d], .throws .drawing) := by simp only [call, create, ht, hn, if_false, Bool.false_eq_true]
        rw [this]
        cases id with
        | user n => cases hn
        | sha i => cases hn
        | random ns =>
          refine ⟨.createNone _ _ _ (fun m hm => ?_), hc⟩
          simp only [chooseName, List.find?_eq_none] at hn
          have := hn m hm
          simp only [Bool.not_eq_true', Bool.not_eq_false] at this
          exact (has_iff L d m).mp this
      | some n =>
        have hfree : loadKey L d n = none := by
          have := choose_writes L ht hn
          cases id with
          | user m => exact (free_iff L d n).mp this.2.2
          | sha i => rw [← this.1]; exact hs
          | random ns => exact (free_iff L d n).mp this.2.2
        obtain ⟨s1, s2, s3, s4⟩ := save_fine hL he hc hfree gen
        have : call L e d (.create id gen) = ((saveKey L e d n gen).1, .name n) := by
          simp only [call, create, ht, hn, if_false, Bool.false_eq_true, s1, if_true]
        rw [this]
        refine ⟨?_, s4⟩
        cases id with
        | user m =>
          simp only [chooseName, Option.some.injEq] at hn
          subst hn
          exact .createUser _ _ _ _ hfree s2 s3
        | sha i =>
          simp only [chooseName, Option.some.injEq] at hn
          subst hn
          exact .createSha _ _ _ _ s2 s3
        | random ns =>
          simp only [chooseName] at hn
          obtain ⟨_, l1, l2, rfl, hl⟩ := List.find?_eq_some_iff_append.mp hn
          refine .createRandom _ _ _ _ _ _ (fun m hm => ?_) hfree s2 s3
          have := hl m hm
          simp only [Bool.not_not] at this
          exact (has_iff L d m).mp this
  | importKey n k =>
    cases ht : hasKey L d n with
    | true =>
      have : call L e d (.importKey n k) = ([d], .throws .backend) := by simp only [call, importKey, ht, if_true]
      rw [this]
      obtain ⟨k', hk'⟩ := Option.ne_none_iff_exists'.mp ((has_iff L d n).mp ht)
      exact ⟨.importTaken _ _ _ k' hk', hc⟩
    | false =>
      have hfree := (has_false L d n).mp ht
      obtain ⟨s1, s2, s3, s4⟩ := save_fine hL he hc hfree k
      have : call L e d (.importKey n k) = ((saveKey L e d n k).1, .unit) := by
        simp only [call, importKey, ht, if_false, Bool.false_eq_true, s1, if_true]
      rw [this]
      exact ⟨.import _ _ _ _ hfree s2 s3, s4⟩
  | importPkcs8 n b pw =>
    cases ht : hasKey L d n with
    | true =>
      have : call L e d (.importPkcs8 n b pw) = ([d], .throws .backend) := by simp only [call, importPkcs8, ht, if_true]
      rw [this]
      exact ⟨.import8Refused _ _ _ _ (.inl ((has_iff L d n).mp ht)), hc⟩
    | false =>
      have hfree := (has_false L d n).mp ht
      cases hk : L.dec8 pw b with
      | none =>
        have : call L e d (.importPkcs8 n b pw) = ([d], .throws .backend) := by
          simp only [call, importPkcs8, ht, hk, if_false, Bool.false_eq_true]
        rw [this]
        exact ⟨.import8Refused _ _ _ _ (.inr hk), hc⟩
      | some k =>
        obtain ⟨s1, s2, s3, s4⟩ := save_fine hL he hc hfree k
        have : call L e d (.importPkcs8 n b pw) = ((saveKey L e d n k).1, .unit) := by
          simp only [call, importPkcs8, ht, hk, if_false, Bool.false_eq_true, s1, if_true]
        rw [this]
        exact ⟨.import8 _ _ _ k _ _ hfree hk s2 s3, s4⟩
  | exportKey n pw =>
    refine ⟨?_, hc⟩
    show Does L _ _ (loadKey L d) (exportKey L d n pw)
    unfold exportKey
    cases hk : loadKey L d n with
    | none => exact .exportNone _ _ _ hk
    | some k => exact .export _ _ _ _ hk
  | delete n =>
    cases hf : d (L.path n) with
    | none =>
      have : call L e d (.delete n) = ([d], .unit) := by simp only [call, delete, hf]
      rw [this]
      refine ⟨.delete _ _ _ ?_ (fun _ _ => rfl), hc⟩
      show loadKey L d n = none
      unfold loadKey; rw [hf]; rfl
    | some f =>
      have : call L e d (.delete n) = ([d.put (L.path n) none, d], .unit) := by simp only [call, delete, hf, he.1, if_true]
      rw [this]
      refine ⟨.delete _ _ _ ?_ (fun m hm => ?_), fun m g hg => ?_⟩
      · show loadKey L (d.put (L.path n) none) n = none
        unfold loadKey; rw [put_same]; rfl
      · exact load_of L (put_other _ _ (fun h => hm (hL.path_inj _ _ h)))
      · have hg' : d.put (L.path n) none (L.path m) = some g := hg
        by_cases hm : L.path m = L.path n
        · rw [hm, put_same] at hg'; cases hg'
        · rw [put_other _ _ hm] at hg'; exact hc m g hg'
  | has n =>
    refine ⟨.has _ _ _ ?_, hc⟩
    exact has_iff L d n
  | handle n => exact ⟨.handle _ _, hc⟩

end Ndn.KeyFile
