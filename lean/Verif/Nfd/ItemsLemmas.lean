import Verif.Nfd.ItemsSpec
import Verif.Mgmt.ParamsLemmas
namespace Ndn.Nfd
open Tlv Tlv.Spec Block Block.Spec Name Packet Packet.Spec Mgmt

theorem rd_of {α : Type} {o : Option α} {a : α} : Rd.of o = .ok a ↔ o = some a := by
  cases o <;> simp [Rd.of]

theorem num_ok (e : Raw) (n : Nat) : num e = .ok n ↔ IsU64 e n := by
  unfold num
  rw [rd_of, num_iff]
  unfold IsNum IsU64
  constructor
  · exact fun h => h.1
  · intro h; exact ⟨h, by have := nni_lt h; omega⟩

theorem numAs_ok (mx : Nat) (e : Raw) (n : Nat) : numAs mx e = .ok n ↔ IsNum mx e n := by
  unfold numAs
  rw [rd_of, numAs_iff]

theorem text_ok (e : Raw) (s : Bytes) : text e = .ok s ↔ IsText e s := by
  unfold text IsText
  simp [eq_comm]

theorem signed_ok (e : Raw) (d : Int) : signed e = .ok d ↔ IsSigned e d := by
  unfold signed
  rw [rd_of, signed_iff]

theorem nameIn_ok (e : Raw) (n : List Comp) : nameIn e = .ok n ↔ IsName e n := by
  unfold nameIn
  rw [rd_of, nameOf_isName]

theorem strategy_ok (e : Raw) (n : List Comp) : Rd.of (strategyOf e) = .ok n ↔ HoldsName e n := by
  rw [rd_of, strategyOf_iff]

theorem timestamp_ok (e : Raw) (t : Int) : timestamp e = .ok t ↔ IsTime e t := by
  unfold timestamp IsTime
  constructor
  · intro h
    split at h
    · cases h
    · rename_i n hn
      split at h
      · rename_i hr
        cases h
        exact ⟨toI64 n, (signed_iff e _).1 (by rw [hn]; rfl), rfl, hr.1, hr.2⟩
      · cases h
  · rintro ⟨ms, hs, rfl, h1, h2⟩
    have := (signed_iff e ms).2 hs
    rw [Option.map_eq_some_iff] at this
    obtain ⟨n, hn, rfl⟩ := this
    rw [hn]
    simp only
    rw [if_pos ⟨h1, h2⟩]

theorem rd_map {α β : Type} {r : Rd α} {f : α → β} {b : β} : r.map f = .ok b ↔ ∃ a, r = .ok a ∧ f a = b := by
  cases r <;> simp [Rd.map]

/-! ### Running the blocks and following the grammar -/

/-- Blocks `k` succeed from `s` with `s'` exactly when the elements follow `g s'` and `s'` is what the blocks may make of
`s` (`Q`). -/
def Exact {σ : Type} (k : List (Step σ)) (g : σ → List Item) (Q : σ → σ → Prop) : Prop :=
  ∀ s es s', runSteps k s es = (.ok, s') ↔ Laid es (g s') ∧ Q s s'

theorem exact_nil {σ : Type} : Exact (σ := σ) [] (fun _ => []) (fun s s' => s = s') := by
  intro s es s'
  simp [runSteps, Laid]

theorem exact_req {σ α : Type} {t : Nat} {rd : Raw → Rd α} {R : Raw → α → Prop} (set : σ → α → σ) (get : σ → α)
    {k : List (Step σ)} {g : σ → List Item} {Q : σ → σ → Prop}
    (hr : ∀ e a, rd e = .ok a ↔ R e a) (hk : Exact k g Q)
    (hQ : ∀ s a s', Q (set s a) s' → get s' = a) :
    Exact (.req t (fun s e => (rd e).map (set s)) :: k) (fun s' => .one t (fun e => R e (get s')) :: g s')
      (fun s s' => Q (set s (get s')) s') := by
  intro s es s'
  constructor
  · intro h
    simp only [runSteps] at h
    cases es with
    | nil => cases h
    | cons e rest =>
      simp only at h
      by_cases ht : e.type = t
      · rw [if_pos ht] at h
        cases hf : (rd e).map (set s) with
        | ok s1 =>
          rw [hf] at h
          obtain ⟨a, ha, rfl⟩ := rd_map.1 hf
          obtain ⟨h1, h2⟩ := (hk _ _ _).1 h
          have h3 := hQ _ _ _ h2
          exact ⟨⟨e, rest, rfl, ht, by rw [h3]; exact (hr e a).1 ha, h1⟩, by dsimp only; rw [h3]; exact h2⟩
        | bad => rw [hf] at h; cases h
        | ub => rw [hf] at h; cases h
      · rw [if_neg ht] at h; cases h
  · rintro ⟨⟨e, rest, rfl, ht, hR, h1⟩, h2⟩
    simp only [runSteps]
    rw [if_pos ht, (hr _ _).2 hR]
    simp only [Rd.map]
    exact (hk _ _ _).2 ⟨h1, h2⟩

theorem exact_may {σ α β : Type} {t : Nat} {rd : Raw → Rd α} {R : Raw → α → Prop} (set : σ → β → σ) (get : σ → β)
    (inj : α → β) (dflt : β)
    {k : List (Step σ)} {g : σ → List Item} {Q : σ → σ → Prop}
    (hr : ∀ e a, rd e = .ok a ↔ R e a) (hk : Exact k g Q)
    (hQ : ∀ s a s', Q (set s a) s' → get s' = a) :
    Exact (.opt t (fun s e => (rd e).map fun a => set s (inj a)) (fun s => set s dflt) :: k)
      (fun s' => .may t (fun e => ∃ a, get s' = inj a ∧ R e a) (get s' = dflt) :: g s')
      (fun s s' => Q (set s (get s')) s') := by
  intro s es s'
  constructor
  · intro h
    simp only [runSteps] at h
    cases es with
    | nil =>
      obtain ⟨h1, h2⟩ := (hk _ _ _).1 h
      have h3 := hQ _ _ _ h2
      exact ⟨Or.inr ⟨(fun _ _ h => by cases h), h3, h1⟩, by dsimp only; rw [h3]; exact h2⟩
    | cons e rest =>
      simp only at h
      by_cases ht : e.type = t
      · rw [if_pos ht] at h
        cases hf : (rd e).map fun a => set s (inj a) with
        | ok s1 =>
          rw [hf] at h
          obtain ⟨a, ha, rfl⟩ := rd_map.1 hf
          obtain ⟨h1, h2⟩ := (hk _ _ _).1 h
          have h3 := hQ _ _ _ h2
          exact ⟨Or.inl ⟨e, rest, rfl, ht, ⟨a, h3, (hr e a).1 ha⟩, h1⟩, by dsimp only; rw [h3]; exact h2⟩
        | bad => rw [hf] at h; cases h
        | ub => rw [hf] at h; cases h
      · rw [if_neg ht] at h
        obtain ⟨h1, h2⟩ := (hk _ _ _).1 h
        have h3 := hQ _ _ _ h2
        refine ⟨Or.inr ⟨?_, h3, h1⟩, by dsimp only; rw [h3]; exact h2⟩
        intro e' r' he
        cases he
        exact ht
  · rintro ⟨h, h2⟩
    rcases h with ⟨e, rest, rfl, ht, ⟨a, ha, hR⟩, h1⟩ | ⟨hn, ha, h1⟩
    · simp only [runSteps]
      rw [if_pos ht, (hr _ _).2 hR]
      simp only [Rd.map]
      rw [ha] at h2
      exact (hk _ _ _).2 ⟨h1, h2⟩
    · simp only [runSteps]
      rw [ha] at h2
      cases es with
      | nil => exact (hk _ _ _).2 ⟨h1, h2⟩
      | cons e rest =>
        simp only
        rw [if_neg (hn e rest rfl)]
        exact (hk _ _ _).2 ⟨h1, h2⟩

theorem exact_opt {σ α : Type} {t : Nat} {rd : Raw → Rd α} {R : Raw → α → Prop} (set : σ → Option α → σ)
    (get : σ → Option α) {k : List (Step σ)} {g : σ → List Item} {Q : σ → σ → Prop}
    (hr : ∀ e a, rd e = .ok a ↔ R e a) (hk : Exact k g Q)
    (hQ : ∀ s a s', Q (set s a) s' → get s' = a) :
    Exact (.opt t (fun s e => (rd e).map fun a => set s (some a)) (fun s => set s none) :: k)
      (fun s' => optional t R (get s') :: g s') (fun s s' => Q (set s (get s')) s') :=
  exact_may set get some none hr hk hQ

theorem exact_optText {σ : Type} {t : Nat} (set : σ → Bytes → σ)
    (get : σ → Bytes) {k : List (Step σ)} {g : σ → List Item} {Q : σ → σ → Prop} (hk : Exact k g Q)
    (hQ : ∀ s a s', Q (set s a) s' → get s' = a) :
    Exact (.opt t (fun s e => (text e).map fun a => set s a) (fun s => set s []) :: k)
      (fun s' => optionalText t (get s') :: g s') (fun s s' => Q (set s (get s')) s') := by
  have h := exact_may (t := t) set get id [] text_ok hk hQ
  intro s es s'
  rw [show (fun s e => (text e).map fun a => set s a) = (fun s e => (text e).map fun a => set s (id a)) from rfl, h s es s']
  have : (fun e => ∃ a, get s' = id a ∧ IsText e a) = fun (e : Raw) => get s' = e.value := by
    funext e
    unfold IsText
    simp
  simp only [optionalText, this]

theorem csFlags_ok (e : Raw) (p : Bool × Bool) : csFlags e = .ok p ↔
    ∃ n, IsU64 e n ∧ (p.1 = true ↔ n % 2 = 1) ∧ (p.2 = true ↔ n / 2 % 2 = 1) := by
  unfold csFlags
  rw [rd_map]
  have h0 : ∀ n : Nat, n.testBit 0 = decide (n % 2 = 1) := fun n => by
    rw [Nat.testBit_zero]
  have h1 : ∀ n : Nat, n.testBit 1 = decide (n / 2 % 2 = 1) := fun n => by
    rw [Nat.testBit_succ, Nat.testBit_zero]
  constructor
  · rintro ⟨n, hn, rfl⟩
    exact ⟨n, (num_ok e n).1 hn, by simp [h0], by simp [h1]⟩
  · rintro ⟨n, hn, ha, hb⟩
    refine ⟨n, (num_ok e n).2 hn, ?_⟩
    rw [h0, h1]
    obtain ⟨a, b⟩ := p
    simp only at ha hb
    rw [show decide (n % 2 = 1) = a by rw [Bool.eq_iff_iff]; simp [ha], show decide (n / 2 % 2 = 1) = b by rw [Bool.eq_iff_iff]; simp [hb]]

/-! ### Each structure: its blocks accept exactly its grammar -/

theorem Channel.exact (s s' : Channel) (es : List Raw) :
    runSteps Channel.steps s es = (.ok, s') ↔ Laid es s'.grammar := by
  have h0 := exact_req (fun (s : Channel) x => { s with localUri := x }) (·.localUri) text_ok (t := 129) exact_nil
    (fun _ _ _ h => (congrArg (·.localUri) h).symm)
  exact (h0 s es s').trans (and_iff_left rfl)

theorem CsInfo.exact (s s' : CsInfo) (es : List Raw) :
    runSteps CsInfo.steps s es = (.ok, s') ↔ Laid es s'.grammar := by
  have h0 := exact_req (fun (s : CsInfo) x => { s with nMisses := x }) (·.nMisses) num_ok (t := 130) exact_nil
    (fun _ _ _ h => (congrArg (·.nMisses) h).symm)
  have h1 := exact_req (fun (s : CsInfo) x => { s with nHits := x }) (·.nHits) num_ok (t := 129) h0
    (fun _ _ _ h => (congrArg (·.nHits) h).symm)
  have h2 := exact_req (fun (s : CsInfo) x => { s with nEntries := x }) (·.nEntries) num_ok (t := 135) h1
    (fun _ _ _ h => (congrArg (·.nEntries) h).symm)
  have h3 := exact_req (fun (s : CsInfo) (x : Bool × Bool) => { s with admit := x.1, serve := x.2 }) (fun s => (s.admit, s.serve)) csFlags_ok (t := 108) h2
    (fun _ _ _ h => (congrArg (fun s => (s.admit, s.serve)) h).symm)
  have h4 := exact_req (fun (s : CsInfo) x => { s with capacity := x }) (·.capacity) num_ok (t := 131) h3
    (fun _ _ _ h => (congrArg (·.capacity) h).symm)
  exact (h4 s es s').trans (and_iff_left rfl)

theorem FaceEvent.exact (s s' : FaceEvent) (es : List Raw) :
    runSteps FaceEvent.steps s es = (.ok, s') ↔ Laid es s'.grammar := by
  have h0 := exact_req (fun (s : FaceEvent) x => { s with flags := x }) (·.flags) num_ok (t := 108) exact_nil
    (fun _ _ _ h => (congrArg (·.flags) h).symm)
  have h1 := exact_req (fun (s : FaceEvent) x => { s with linkType := x }) (·.linkType) (numAs_ok 255) (t := 134) h0
    (fun _ _ _ h => (congrArg (·.linkType) h).symm)
  have h2 := exact_req (fun (s : FaceEvent) x => { s with persistency := x }) (·.persistency) (numAs_ok 255) (t := 133) h1
    (fun _ _ _ h => (congrArg (·.persistency) h).symm)
  have h3 := exact_req (fun (s : FaceEvent) x => { s with scope := x }) (·.scope) (numAs_ok 255) (t := 132) h2
    (fun _ _ _ h => (congrArg (·.scope) h).symm)
  have h4 := exact_req (fun (s : FaceEvent) x => { s with localUri := x }) (·.localUri) text_ok (t := 129) h3
    (fun _ _ _ h => (congrArg (·.localUri) h).symm)
  have h5 := exact_req (fun (s : FaceEvent) x => { s with remoteUri := x }) (·.remoteUri) text_ok (t := 114) h4
    (fun _ _ _ h => (congrArg (·.remoteUri) h).symm)
  have h6 := exact_req (fun (s : FaceEvent) x => { s with faceId := x }) (·.faceId) num_ok (t := 105) h5
    (fun _ _ _ h => (congrArg (·.faceId) h).symm)
  have h7 := exact_req (fun (s : FaceEvent) x => { s with kind := x }) (·.kind) (numAs_ok 255) (t := 193) h6
    (fun _ _ _ h => (congrArg (·.kind) h).symm)
  exact (h7 s es s').trans (and_iff_left rfl)

theorem FaceStatus.exact (s s' : FaceStatus) (es : List Raw) :
    runSteps FaceStatus.steps s es = (.ok, s') ↔ Laid es s'.grammar := by
  have h0 := exact_req (fun (s : FaceStatus) x => { s with flags := x }) (·.flags) num_ok (t := 108) exact_nil
    (fun _ _ _ h => (congrArg (·.flags) h).symm)
  have h1 := exact_req (fun (s : FaceStatus) x => { s with nOutBytes := x }) (·.nOutBytes) num_ok (t := 149) h0
    (fun _ _ _ h => (congrArg (·.nOutBytes) h).symm)
  have h2 := exact_req (fun (s : FaceStatus) x => { s with nInBytes := x }) (·.nInBytes) num_ok (t := 148) h1
    (fun _ _ _ h => (congrArg (·.nInBytes) h).symm)
  have h3 := exact_req (fun (s : FaceStatus) x => { s with nOutNacks := x }) (·.nOutNacks) num_ok (t := 152) h2
    (fun _ _ _ h => (congrArg (·.nOutNacks) h).symm)
  have h4 := exact_req (fun (s : FaceStatus) x => { s with nOutData := x }) (·.nOutData) num_ok (t := 147) h3
    (fun _ _ _ h => (congrArg (·.nOutData) h).symm)
  have h5 := exact_req (fun (s : FaceStatus) x => { s with nOutInterests := x }) (·.nOutInterests) num_ok (t := 146) h4
    (fun _ _ _ h => (congrArg (·.nOutInterests) h).symm)
  have h6 := exact_req (fun (s : FaceStatus) x => { s with nInNacks := x }) (·.nInNacks) num_ok (t := 151) h5
    (fun _ _ _ h => (congrArg (·.nInNacks) h).symm)
  have h7 := exact_req (fun (s : FaceStatus) x => { s with nInData := x }) (·.nInData) num_ok (t := 145) h6
    (fun _ _ _ h => (congrArg (·.nInData) h).symm)
  have h8 := exact_req (fun (s : FaceStatus) x => { s with nInInterests := x }) (·.nInInterests) num_ok (t := 144) h7
    (fun _ _ _ h => (congrArg (·.nInInterests) h).symm)
  have h9 := exact_opt (fun (s : FaceStatus) x => { s with mtu := x }) (·.mtu) num_ok (t := 137) h8
    (fun _ _ _ h => (congrArg (·.mtu) h).symm)
  have h10 := exact_opt (fun (s : FaceStatus) x => { s with threshold := x }) (·.threshold) num_ok (t := 136) h9
    (fun _ _ _ h => (congrArg (·.threshold) h).symm)
  have h11 := exact_opt (fun (s : FaceStatus) x => { s with interval := x }) (·.interval) signed_ok (t := 135) h10
    (fun _ _ _ h => (congrArg (·.interval) h).symm)
  have h12 := exact_req (fun (s : FaceStatus) x => { s with linkType := x }) (·.linkType) (numAs_ok 255) (t := 134) h11
    (fun _ _ _ h => (congrArg (·.linkType) h).symm)
  have h13 := exact_req (fun (s : FaceStatus) x => { s with persistency := x }) (·.persistency) (numAs_ok 255) (t := 133) h12
    (fun _ _ _ h => (congrArg (·.persistency) h).symm)
  have h14 := exact_req (fun (s : FaceStatus) x => { s with scope := x }) (·.scope) (numAs_ok 255) (t := 132) h13
    (fun _ _ _ h => (congrArg (·.scope) h).symm)
  have h15 := exact_opt (fun (s : FaceStatus) x => { s with expiration := x }) (·.expiration) signed_ok (t := 109) h14
    (fun _ _ _ h => (congrArg (·.expiration) h).symm)
  have h16 := exact_req (fun (s : FaceStatus) x => { s with localUri := x }) (·.localUri) text_ok (t := 129) h15
    (fun _ _ _ h => (congrArg (·.localUri) h).symm)
  have h17 := exact_req (fun (s : FaceStatus) x => { s with remoteUri := x }) (·.remoteUri) text_ok (t := 114) h16
    (fun _ _ _ h => (congrArg (·.remoteUri) h).symm)
  have h18 := exact_req (fun (s : FaceStatus) x => { s with faceId := x }) (·.faceId) num_ok (t := 105) h17
    (fun _ _ _ h => (congrArg (·.faceId) h).symm)
  exact (h18 s es s').trans (and_iff_left rfl)

theorem Forwarder.exact (s s' : Forwarder) (es : List Raw) :
    runSteps Forwarder.steps s es = (.ok, s') ↔ Laid es s'.grammar := by
  have h0 := exact_req (fun (s : Forwarder) x => { s with nUnsatisfied := x }) (·.nUnsatisfied) num_ok (t := 154) exact_nil
    (fun _ _ _ h => (congrArg (·.nUnsatisfied) h).symm)
  have h1 := exact_req (fun (s : Forwarder) x => { s with nSatisfied := x }) (·.nSatisfied) num_ok (t := 153) h0
    (fun _ _ _ h => (congrArg (·.nSatisfied) h).symm)
  have h2 := exact_req (fun (s : Forwarder) x => { s with nOutNacks := x }) (·.nOutNacks) num_ok (t := 152) h1
    (fun _ _ _ h => (congrArg (·.nOutNacks) h).symm)
  have h3 := exact_req (fun (s : Forwarder) x => { s with nOutData := x }) (·.nOutData) num_ok (t := 147) h2
    (fun _ _ _ h => (congrArg (·.nOutData) h).symm)
  have h4 := exact_req (fun (s : Forwarder) x => { s with nOutInterests := x }) (·.nOutInterests) num_ok (t := 146) h3
    (fun _ _ _ h => (congrArg (·.nOutInterests) h).symm)
  have h5 := exact_req (fun (s : Forwarder) x => { s with nInNacks := x }) (·.nInNacks) num_ok (t := 151) h4
    (fun _ _ _ h => (congrArg (·.nInNacks) h).symm)
  have h6 := exact_req (fun (s : Forwarder) x => { s with nInData := x }) (·.nInData) num_ok (t := 145) h5
    (fun _ _ _ h => (congrArg (·.nInData) h).symm)
  have h7 := exact_req (fun (s : Forwarder) x => { s with nInInterests := x }) (·.nInInterests) num_ok (t := 144) h6
    (fun _ _ _ h => (congrArg (·.nInInterests) h).symm)
  have h8 := exact_req (fun (s : Forwarder) x => { s with nCs := x }) (·.nCs) num_ok (t := 135) h7
    (fun _ _ _ h => (congrArg (·.nCs) h).symm)
  have h9 := exact_req (fun (s : Forwarder) x => { s with nMeasurements := x }) (·.nMeasurements) num_ok (t := 134) h8
    (fun _ _ _ h => (congrArg (·.nMeasurements) h).symm)
  have h10 := exact_req (fun (s : Forwarder) x => { s with nPit := x }) (·.nPit) num_ok (t := 133) h9
    (fun _ _ _ h => (congrArg (·.nPit) h).symm)
  have h11 := exact_req (fun (s : Forwarder) x => { s with nFib := x }) (·.nFib) num_ok (t := 132) h10
    (fun _ _ _ h => (congrArg (·.nFib) h).symm)
  have h12 := exact_req (fun (s : Forwarder) x => { s with nNameTree := x }) (·.nNameTree) num_ok (t := 131) h11
    (fun _ _ _ h => (congrArg (·.nNameTree) h).symm)
  have h13 := exact_req (fun (s : Forwarder) x => { s with current := x }) (·.current) timestamp_ok (t := 130) h12
    (fun _ _ _ h => (congrArg (·.current) h).symm)
  have h14 := exact_req (fun (s : Forwarder) x => { s with start := x }) (·.start) timestamp_ok (t := 129) h13
    (fun _ _ _ h => (congrArg (·.start) h).symm)
  have h15 := exact_req (fun (s : Forwarder) x => { s with version := x }) (·.version) text_ok (t := 128) h14
    (fun _ _ _ h => (congrArg (·.version) h).symm)
  exact (h15 s es s').trans (and_iff_left rfl)

theorem Filter.exact (s s' : Filter) (es : List Raw) :
    runSteps Filter.steps s es = (.ok, s') ↔ Laid es s'.grammar := by
  have h0 := exact_opt (fun (s : Filter) x => { s with linkType := x }) (·.linkType) (numAs_ok 255) (t := 134) exact_nil
    (fun _ _ _ h => (congrArg (·.linkType) h).symm)
  have h1 := exact_opt (fun (s : Filter) x => { s with persistency := x }) (·.persistency) (numAs_ok 255) (t := 133) h0
    (fun _ _ _ h => (congrArg (·.persistency) h).symm)
  have h2 := exact_opt (fun (s : Filter) x => { s with scope := x }) (·.scope) (numAs_ok 255) (t := 132) h1
    (fun _ _ _ h => (congrArg (·.scope) h).symm)
  have h3 := exact_optText (fun (s : Filter) x => { s with localUri := x }) (·.localUri) (t := 129) h2
    (fun _ _ _ h => (congrArg (·.localUri) h).symm)
  have h4 := exact_optText (fun (s : Filter) x => { s with remoteUri := x }) (·.remoteUri) (t := 114) h3
    (fun _ _ _ h => (congrArg (·.remoteUri) h).symm)
  have h5 := exact_optText (fun (s : Filter) x => { s with uriScheme := x }) (·.uriScheme) (t := 131) h4
    (fun _ _ _ h => (congrArg (·.uriScheme) h).symm)
  have h6 := exact_opt (fun (s : Filter) x => { s with faceId := x }) (·.faceId) num_ok (t := 105) h5
    (fun _ _ _ h => (congrArg (·.faceId) h).symm)
  exact (h6 s es s').trans (and_iff_left rfl)

theorem NextHop.exact (s s' : NextHop) (es : List Raw) :
    runSteps NextHop.steps s es = (.ok, s') ↔ Laid es s'.grammar := by
  have h0 := exact_req (fun (s : NextHop) x => { s with cost := x }) (·.cost) num_ok (t := 106) exact_nil
    (fun _ _ _ h => (congrArg (·.cost) h).symm)
  have h1 := exact_req (fun (s : NextHop) x => { s with faceId := x }) (·.faceId) num_ok (t := 105) h0
    (fun _ _ _ h => (congrArg (·.faceId) h).symm)
  exact (h1 s es s').trans (and_iff_left rfl)

theorem Route.exact (s s' : Route) (es : List Raw) :
    runSteps Route.steps s es = (.ok, s') ↔ Laid es s'.grammar := by
  have h0 := exact_opt (fun (s : Route) x => { s with expiration := x }) (·.expiration) signed_ok (t := 109) exact_nil
    (fun _ _ _ h => (congrArg (·.expiration) h).symm)
  have h1 := exact_req (fun (s : Route) x => { s with flags := x }) (·.flags) num_ok (t := 108) h0
    (fun _ _ _ h => (congrArg (·.flags) h).symm)
  have h2 := exact_req (fun (s : Route) x => { s with cost := x }) (·.cost) num_ok (t := 106) h1
    (fun _ _ _ h => (congrArg (·.cost) h).symm)
  have h3 := exact_req (fun (s : Route) x => { s with origin := x }) (·.origin) (numAs_ok 65535) (t := 111) h2
    (fun _ _ _ h => (congrArg (·.origin) h).symm)
  have h4 := exact_req (fun (s : Route) x => { s with faceId := x }) (·.faceId) num_ok (t := 105) h3
    (fun _ _ _ h => (congrArg (·.faceId) h).symm)
  exact (h4 s es s').trans (and_iff_left rfl)

theorem Choice.exact (s s' : Choice) (es : List Raw) :
    runSteps Choice.steps s es = (.ok, s') ↔ Laid es s'.grammar := by
  have h0 := exact_req (fun (s : Choice) x => { s with strategy := x }) (·.strategy) strategy_ok (t := 107) exact_nil
    (fun _ _ _ h => (congrArg (·.strategy) h).symm)
  have h1 := exact_req (fun (s : Choice) x => { s with name := x }) (·.name) nameIn_ok (t := 7) h0
    (fun _ _ _ h => (congrArg (·.name) h).symm)
  exact (h1 s es s').trans (and_iff_left rfl)

/-! ### The elements an encoding has -/

/-- The first element is not of type `t`. -/
def HeadNe (t : Nat) (es : List Raw) : Prop := ∀ e rest, es = e :: rest → e.type ≠ t

theorem headNe_nil {t : Nat} : HeadNe t [] := by intro e r h; cases h

theorem headNe_cons {t : Nat} {e : Raw} {es : List Raw} (h : e.type ≠ t) : HeadNe t (e :: es) := by
  intro x r hx; cases hx; exact h

theorem headNe_opt {α : Type} {t : Nat} {o : Option α} {f : α → Raw} {es : List Raw} (h : ∀ a, (f a).type ≠ t)
    (hn : HeadNe t es) : HeadNe t (optRaw o f ++ es) := by
  cases o with
  | none => exact hn
  | some a => exact headNe_cons (h a)

/-- The element of a text that is left out when empty. -/
def textRaw (t : Nat) (s : Bytes) : List Raw := if s = [] then [] else [binaryBlock t s]

theorem textRaw_wire (t : Nat) (s : Bytes) : ((textRaw t s).map Raw.wire).flatten = textElem t s := by
  unfold textRaw textElem
  split <;> simp [binaryBlock]

theorem headNe_text {t u : Nat} {s : Bytes} {es : List Raw} (h : u ≠ t) (hn : HeadNe t es) : HeadNe t (textRaw u s ++ es) := by
  unfold textRaw
  split
  · exact hn
  · exact headNe_cons h

theorem laid_one {t : Nat} {P : Raw → Prop} {e : Raw} {rest : List Raw} {is : List Item} (ht : e.type = t) (hP : P e)
    (h : Laid rest is) : Laid (e :: rest) (.one t P :: is) := ⟨e, rest, rfl, ht, hP, h⟩

theorem laid_opt {α : Type} {t : Nat} {R : Raw → α → Prop} {o : Option α} {f : α → Raw} {rest : List Raw}
    {is : List Item} (ht : ∀ a, (f a).type = t) (hR : ∀ a, o = some a → R (f a) a) (hn : HeadNe t rest)
    (h : Laid rest is) : Laid (optRaw o f ++ rest) (optional t R o :: is) := by
  cases o with
  | none => exact Or.inr ⟨hn, rfl, h⟩
  | some a => exact Or.inl ⟨f a, rest, rfl, ht a, ⟨a, rfl, hR a rfl⟩, h⟩

theorem laid_text {t : Nat} {s : Bytes} {rest : List Raw} {is : List Item} (hn : HeadNe t rest) (h : Laid rest is) :
    Laid (textRaw t s ++ rest) (optionalText t s :: is) := by
  unfold textRaw optionalText
  split
  · rename_i hs
    exact Or.inr ⟨hn, hs, h⟩
  · exact Or.inl ⟨binaryBlock t s, rest, rfl, rfl, rfl, h⟩

theorem numRaw_u64 {t n : Nat} (h : U64 n) : IsU64 (numRaw t n) n := writeNonNegativeInteger_form h

theorem numRaw_num {t n mx : Nat} (h : n ≤ mx) (hm : mx < 2 ^ 64) : IsNum mx (numRaw t n) n :=
  ⟨writeNonNegativeInteger_form (by omega), h⟩

theorem durRaw_signed {t : Nat} {d : Int} (h : I64 d) : IsSigned (durRaw t d) d := by
  rw [← signed_iff]
  show (readNniValue (writeNonNegativeInteger (toU64 d))).map toI64 = some d
  rw [readNniValue_write (toU64_lt d)]
  simp [toI64_toU64 h]

/-- An element made by the encoder. -/
def IsBin (e : Raw) : Prop := ∃ t v, 1 ≤ t ∧ t ≤ 2 ^ 32 - 1 ∧ e = binaryBlock t v

theorem isBin_wf {e : Raw} (h : IsBin e) (hl : e.wire.length < 2 ^ 64) : RawWF e := by
  obtain ⟨t, v, h0, h1, rfl⟩ := h
  exact binaryBlock_wf h0 h1 (Nat.lt_of_le_of_lt (tlvBytes_ge t v) hl)

theorem all_wf {es : List Raw} {v : Bytes} (hv : v = (es.map Raw.wire).flatten) (hl : v.length < 2 ^ 64)
    (hb : ∀ e ∈ es, IsBin e) : ∀ e ∈ es, RawWF e := by
  intro e he
  refine isBin_wf (hb e he) ?_
  have := flatten_mem_le he
  rw [← hv] at this
  omega

theorem bin_cons {e : Raw} {es : List Raw} (h : IsBin e) (hs : ∀ x ∈ es, IsBin x) : ∀ x ∈ e :: es, IsBin x := by
  intro x hx
  rcases List.mem_cons.1 hx with rfl | hx
  · exact h
  · exact hs x hx

theorem bin_nil : ∀ x ∈ ([] : List Raw), IsBin x := by intro x hx; cases hx

theorem bin_opt {α : Type} {o : Option α} {f : α → Raw} {es : List Raw} (h : ∀ a, IsBin (f a)) (hs : ∀ x ∈ es, IsBin x) :
    ∀ x ∈ optRaw o f ++ es, IsBin x := by
  cases o with
  | none => exact hs
  | some a => exact bin_cons (h a) hs

theorem bin_text {t : Nat} {s : Bytes} {es : List Raw} (h : 1 ≤ t ∧ t ≤ 2 ^ 32 - 1) (hs : ∀ x ∈ es, IsBin x) :
    ∀ x ∈ textRaw t s ++ es, IsBin x := by
  unfold textRaw
  split
  · exact hs
  · exact bin_cons ⟨t, s, h.1, h.2, rfl⟩ hs

def Channel.elems (s : Channel) : List Raw :=
  binaryBlock 129 s.localUri :: []

theorem Channel.elems_wire (s : Channel) : s.value = (s.elems.map Raw.wire).flatten := by
  unfold Channel.value Channel.elems
  simp only [List.map_append, List.map_cons, List.map_nil, List.flatten_append, List.flatten_cons, List.flatten_nil, List.append_assoc, List.append_nil, numRaw, durRaw, binaryBlock, nniTlv]

theorem Channel.elems_bin (s : Channel) : ∀ e ∈ s.elems, IsBin e :=
  bin_cons ⟨_, _, by decide, by decide, rfl⟩ bin_nil

theorem Channel.laid {s : Channel} (h : s.Ok) : Laid s.elems s.grammar := by
  obtain h0 := h
  exact laid_one rfl rfl trivial

def CsInfo.elems (s : CsInfo) : List Raw :=
  numRaw 131 s.capacity :: numRaw 108 s.flags :: numRaw 135 s.nEntries :: numRaw 129 s.nHits :: numRaw 130 s.nMisses :: []

theorem CsInfo.elems_wire (s : CsInfo) : s.value = (s.elems.map Raw.wire).flatten := by
  unfold CsInfo.value CsInfo.elems
  simp only [List.map_append, List.map_cons, List.map_nil, List.flatten_append, List.flatten_cons, List.flatten_nil, List.append_assoc, List.append_nil, numRaw, durRaw, binaryBlock, nniTlv]

theorem CsInfo.elems_bin (s : CsInfo) : ∀ e ∈ s.elems, IsBin e :=
  bin_cons ⟨_, _, by decide, by decide, rfl⟩ (bin_cons ⟨_, _, by decide, by decide, rfl⟩ (bin_cons ⟨_, _, by decide, by decide, rfl⟩ (bin_cons ⟨_, _, by decide, by decide, rfl⟩ (bin_cons ⟨_, _, by decide, by decide, rfl⟩ bin_nil))))

theorem CsInfo.flags_ok (s : CsInfo) {t : Nat} : ∃ n, IsU64 (numRaw t s.flags) n ∧ (s.admit = true ↔ n % 2 = 1) ∧ (s.serve = true ↔ n / 2 % 2 = 1) := by
  refine ⟨s.flags, numRaw_u64 ?_, ?_, ?_⟩ <;> unfold CsInfo.flags <;> cases s.admit <;> cases s.serve <;> simp [U64]

theorem CsInfo.laid {s : CsInfo} (h : s.Ok) : Laid s.elems s.grammar := by
  obtain ⟨h0, h1, h2, h3⟩ := h
  exact laid_one rfl (numRaw_u64 h0) (laid_one rfl (CsInfo.flags_ok s) (laid_one rfl (numRaw_u64 h1) (laid_one rfl (numRaw_u64 h2) (laid_one rfl (numRaw_u64 h3) trivial))))

def FaceEvent.elems (s : FaceEvent) : List Raw :=
  numRaw 193 s.kind :: numRaw 105 s.faceId :: binaryBlock 114 s.remoteUri :: binaryBlock 129 s.localUri :: numRaw 132 s.scope :: numRaw 133 s.persistency :: numRaw 134 s.linkType :: numRaw 108 s.flags :: []

theorem FaceEvent.elems_wire (s : FaceEvent) : s.value = (s.elems.map Raw.wire).flatten := by
  unfold FaceEvent.value FaceEvent.elems
  simp only [List.map_append, List.map_cons, List.map_nil, List.flatten_append, List.flatten_cons, List.flatten_nil, List.append_assoc, List.append_nil, numRaw, durRaw, binaryBlock, nniTlv]

theorem FaceEvent.elems_bin (s : FaceEvent) : ∀ e ∈ s.elems, IsBin e :=
  bin_cons ⟨_, _, by decide, by decide, rfl⟩ (bin_cons ⟨_, _, by decide, by decide, rfl⟩ (bin_cons ⟨_, _, by decide, by decide, rfl⟩ (bin_cons ⟨_, _, by decide, by decide, rfl⟩ (bin_cons ⟨_, _, by decide, by decide, rfl⟩ (bin_cons ⟨_, _, by decide, by decide, rfl⟩ (bin_cons ⟨_, _, by decide, by decide, rfl⟩ (bin_cons ⟨_, _, by decide, by decide, rfl⟩ bin_nil)))))))

theorem FaceEvent.laid {s : FaceEvent} (h : s.Ok) : Laid s.elems s.grammar := by
  obtain ⟨h0, h1, h2, h3, h4, h5, h6⟩ := h
  exact laid_one rfl (numRaw_num h0 (by decide)) (laid_one rfl (numRaw_u64 h1) (laid_one rfl rfl (laid_one rfl rfl (laid_one rfl (numRaw_num h2 (by decide)) (laid_one rfl (numRaw_num h3 (by decide)) (laid_one rfl (numRaw_num h4 (by decide)) (laid_one rfl (numRaw_u64 h5) trivial)))))))

def FaceStatus.elems (s : FaceStatus) : List Raw :=
  numRaw 105 s.faceId :: binaryBlock 114 s.remoteUri :: binaryBlock 129 s.localUri :: (optRaw s.expiration (durRaw 109) ++ numRaw 132 s.scope :: numRaw 133 s.persistency :: numRaw 134 s.linkType :: (optRaw s.interval (durRaw 135) ++ (optRaw s.threshold (numRaw 136) ++ (optRaw s.mtu (numRaw 137) ++ numRaw 144 s.nInInterests :: numRaw 145 s.nInData :: numRaw 151 s.nInNacks :: numRaw 146 s.nOutInterests :: numRaw 147 s.nOutData :: numRaw 152 s.nOutNacks :: numRaw 148 s.nInBytes :: numRaw 149 s.nOutBytes :: numRaw 108 s.flags :: []))))

theorem FaceStatus.elems_wire (s : FaceStatus) : s.value = (s.elems.map Raw.wire).flatten := by
  unfold FaceStatus.value FaceStatus.elems
  simp only [List.map_append, List.map_cons, List.map_nil, List.flatten_append, List.flatten_cons, List.flatten_nil, List.append_assoc, List.append_nil, optRaw_wire s.expiration (durRaw 109) (fun d => nniTlv 109 (toU64 d)) (fun _ => rfl), optRaw_wire s.interval (durRaw 135) (fun d => nniTlv 135 (toU64 d)) (fun _ => rfl), optRaw_wire s.threshold (numRaw 136) (nniTlv 136) (fun _ => rfl), optRaw_wire s.mtu (numRaw 137) (nniTlv 137) (fun _ => rfl), numRaw, durRaw, binaryBlock, nniTlv]

theorem FaceStatus.elems_bin (s : FaceStatus) : ∀ e ∈ s.elems, IsBin e :=
  bin_cons ⟨_, _, by decide, by decide, rfl⟩ (bin_cons ⟨_, _, by decide, by decide, rfl⟩ (bin_cons ⟨_, _, by decide, by decide, rfl⟩ (bin_opt (fun _ => ⟨_, _, by decide, by decide, rfl⟩) (bin_cons ⟨_, _, by decide, by decide, rfl⟩ (bin_cons ⟨_, _, by decide, by decide, rfl⟩ (bin_cons ⟨_, _, by decide, by decide, rfl⟩ (bin_opt (fun _ => ⟨_, _, by decide, by decide, rfl⟩) (bin_opt (fun _ => ⟨_, _, by decide, by decide, rfl⟩) (bin_opt (fun _ => ⟨_, _, by decide, by decide, rfl⟩) (bin_cons ⟨_, _, by decide, by decide, rfl⟩ (bin_cons ⟨_, _, by decide, by decide, rfl⟩ (bin_cons ⟨_, _, by decide, by decide, rfl⟩ (bin_cons ⟨_, _, by decide, by decide, rfl⟩ (bin_cons ⟨_, _, by decide, by decide, rfl⟩ (bin_cons ⟨_, _, by decide, by decide, rfl⟩ (bin_cons ⟨_, _, by decide, by decide, rfl⟩ (bin_cons ⟨_, _, by decide, by decide, rfl⟩ (bin_cons ⟨_, _, by decide, by decide, rfl⟩ bin_nil))))))))))))))))))

theorem FaceStatus.laid {s : FaceStatus} (h : s.Ok) : Laid s.elems s.grammar := by
  obtain ⟨h0, h1, h2, h3, h4, h5, h6, h7, h8, h9, h10, h11, h12, h13, h14, h15, h16, h17⟩ := h
  exact laid_one rfl (numRaw_u64 h0) (laid_one rfl rfl (laid_one rfl rfl (laid_opt (fun _ => rfl) (fun a ha => durRaw_signed (h1 a ha)) (headNe_cons (by simp [numRaw, durRaw, binaryBlock])) (laid_one rfl (numRaw_num h2 (by decide)) (laid_one rfl (numRaw_num h3 (by decide)) (laid_one rfl (numRaw_num h4 (by decide)) (laid_opt (fun _ => rfl) (fun a ha => durRaw_signed (h5 a ha)) (headNe_opt (by simp [numRaw, durRaw, binaryBlock]) (headNe_opt (by simp [numRaw, durRaw, binaryBlock]) (headNe_cons (by simp [numRaw, durRaw, binaryBlock])))) (laid_opt (fun _ => rfl) (fun a ha => numRaw_u64 (h6 a ha)) (headNe_opt (by simp [numRaw, durRaw, binaryBlock]) (headNe_cons (by simp [numRaw, durRaw, binaryBlock]))) (laid_opt (fun _ => rfl) (fun a ha => numRaw_u64 (h7 a ha)) (headNe_cons (by simp [numRaw, durRaw, binaryBlock])) (laid_one rfl (numRaw_u64 h8) (laid_one rfl (numRaw_u64 h9) (laid_one rfl (numRaw_u64 h10) (laid_one rfl (numRaw_u64 h11) (laid_one rfl (numRaw_u64 h12) (laid_one rfl (numRaw_u64 h13) (laid_one rfl (numRaw_u64 h14) (laid_one rfl (numRaw_u64 h15) (laid_one rfl (numRaw_u64 h16) trivial))))))))))))))))))

def Forwarder.elems (s : Forwarder) : List Raw :=
  binaryBlock 128 s.version :: durRaw 129 (toMs s.start) :: durRaw 130 (toMs s.current) :: numRaw 131 s.nNameTree :: numRaw 132 s.nFib :: numRaw 133 s.nPit :: numRaw 134 s.nMeasurements :: numRaw 135 s.nCs :: numRaw 144 s.nInInterests :: numRaw 145 s.nInData :: numRaw 151 s.nInNacks :: numRaw 146 s.nOutInterests :: numRaw 147 s.nOutData :: numRaw 152 s.nOutNacks :: numRaw 153 s.nSatisfied :: numRaw 154 s.nUnsatisfied :: []

theorem Forwarder.elems_wire (s : Forwarder) : s.value = (s.elems.map Raw.wire).flatten := by
  unfold Forwarder.value Forwarder.elems
  simp only [List.map_append, List.map_cons, List.map_nil, List.flatten_append, List.flatten_cons, List.flatten_nil, List.append_assoc, List.append_nil, numRaw, durRaw, binaryBlock, nniTlv]

theorem Forwarder.elems_bin (s : Forwarder) : ∀ e ∈ s.elems, IsBin e :=
  bin_cons ⟨_, _, by decide, by decide, rfl⟩ (bin_cons ⟨_, _, by decide, by decide, rfl⟩ (bin_cons ⟨_, _, by decide, by decide, rfl⟩ (bin_cons ⟨_, _, by decide, by decide, rfl⟩ (bin_cons ⟨_, _, by decide, by decide, rfl⟩ (bin_cons ⟨_, _, by decide, by decide, rfl⟩ (bin_cons ⟨_, _, by decide, by decide, rfl⟩ (bin_cons ⟨_, _, by decide, by decide, rfl⟩ (bin_cons ⟨_, _, by decide, by decide, rfl⟩ (bin_cons ⟨_, _, by decide, by decide, rfl⟩ (bin_cons ⟨_, _, by decide, by decide, rfl⟩ (bin_cons ⟨_, _, by decide, by decide, rfl⟩ (bin_cons ⟨_, _, by decide, by decide, rfl⟩ (bin_cons ⟨_, _, by decide, by decide, rfl⟩ (bin_cons ⟨_, _, by decide, by decide, rfl⟩ (bin_cons ⟨_, _, by decide, by decide, rfl⟩ bin_nil)))))))))))))))

def Filter.elems (s : Filter) : List Raw :=
  (optRaw s.faceId (numRaw 105) ++ (textRaw 131 s.uriScheme ++ (textRaw 114 s.remoteUri ++ (textRaw 129 s.localUri ++ (optRaw s.scope (numRaw 132) ++ (optRaw s.persistency (numRaw 133) ++ (optRaw s.linkType (numRaw 134) ++ [])))))))

theorem Filter.elems_wire (s : Filter) : s.value = (s.elems.map Raw.wire).flatten := by
  unfold Filter.value Filter.elems
  simp only [List.map_append, List.map_cons, List.map_nil, List.flatten_append, List.flatten_cons, List.flatten_nil, List.append_assoc, List.append_nil, optRaw_wire s.faceId (numRaw 105) (nniTlv 105) (fun _ => rfl), textRaw_wire 131 s.uriScheme, textRaw_wire 114 s.remoteUri, textRaw_wire 129 s.localUri, optRaw_wire s.scope (numRaw 132) (nniTlv 132) (fun _ => rfl), optRaw_wire s.persistency (numRaw 133) (nniTlv 133) (fun _ => rfl), optRaw_wire s.linkType (numRaw 134) (nniTlv 134) (fun _ => rfl), numRaw, durRaw, binaryBlock, nniTlv]

theorem Filter.elems_bin (s : Filter) : ∀ e ∈ s.elems, IsBin e :=
  bin_opt (fun _ => ⟨_, _, by decide, by decide, rfl⟩) (bin_text (by decide) (bin_text (by decide) (bin_text (by decide) (bin_opt (fun _ => ⟨_, _, by decide, by decide, rfl⟩) (bin_opt (fun _ => ⟨_, _, by decide, by decide, rfl⟩) (bin_opt (fun _ => ⟨_, _, by decide, by decide, rfl⟩) bin_nil))))))

theorem Filter.laid {s : Filter} (h : s.Ok) : Laid s.elems s.grammar := by
  obtain ⟨h0, h1, h2, h3, h4⟩ := h
  exact laid_opt (fun _ => rfl) (fun a ha => numRaw_u64 (h0 a ha)) (headNe_text (by decide) (headNe_text (by decide) (headNe_text (by decide) (headNe_opt (by simp [numRaw, durRaw, binaryBlock]) (headNe_opt (by simp [numRaw, durRaw, binaryBlock]) (headNe_opt (by simp [numRaw, durRaw, binaryBlock]) headNe_nil)))))) (laid_text (headNe_text (by decide) (headNe_text (by decide) (headNe_opt (by simp [numRaw, durRaw, binaryBlock]) (headNe_opt (by simp [numRaw, durRaw, binaryBlock]) (headNe_opt (by simp [numRaw, durRaw, binaryBlock]) headNe_nil))))) (laid_text (headNe_text (by decide) (headNe_opt (by simp [numRaw, durRaw, binaryBlock]) (headNe_opt (by simp [numRaw, durRaw, binaryBlock]) (headNe_opt (by simp [numRaw, durRaw, binaryBlock]) headNe_nil)))) (laid_text (headNe_opt (by simp [numRaw, durRaw, binaryBlock]) (headNe_opt (by simp [numRaw, durRaw, binaryBlock]) (headNe_opt (by simp [numRaw, durRaw, binaryBlock]) headNe_nil))) (laid_opt (fun _ => rfl) (fun a ha => numRaw_num (h1 a ha) (by decide)) (headNe_opt (by simp [numRaw, durRaw, binaryBlock]) (headNe_opt (by simp [numRaw, durRaw, binaryBlock]) headNe_nil)) (laid_opt (fun _ => rfl) (fun a ha => numRaw_num (h2 a ha) (by decide)) (headNe_opt (by simp [numRaw, durRaw, binaryBlock]) headNe_nil) (laid_opt (fun _ => rfl) (fun a ha => numRaw_num (h3 a ha) (by decide)) headNe_nil trivial))))))

def NextHop.elems (s : NextHop) : List Raw :=
  numRaw 105 s.faceId :: numRaw 106 s.cost :: []

theorem NextHop.elems_wire (s : NextHop) : s.value = (s.elems.map Raw.wire).flatten := by
  unfold NextHop.value NextHop.elems
  simp only [List.map_append, List.map_cons, List.map_nil, List.flatten_append, List.flatten_cons, List.flatten_nil, List.append_assoc, List.append_nil, numRaw, durRaw, binaryBlock, nniTlv]

theorem NextHop.elems_bin (s : NextHop) : ∀ e ∈ s.elems, IsBin e :=
  bin_cons ⟨_, _, by decide, by decide, rfl⟩ (bin_cons ⟨_, _, by decide, by decide, rfl⟩ bin_nil)

theorem NextHop.laid {s : NextHop} (h : s.Ok) : Laid s.elems s.grammar := by
  obtain ⟨h0, h1⟩ := h
  exact laid_one rfl (numRaw_u64 h0) (laid_one rfl (numRaw_u64 h1) trivial)

def Route.elems (s : Route) : List Raw :=
  numRaw 105 s.faceId :: numRaw 111 s.origin :: numRaw 106 s.cost :: numRaw 108 s.flags :: (optRaw s.expiration (durRaw 109) ++ [])

theorem Route.elems_wire (s : Route) : s.value = (s.elems.map Raw.wire).flatten := by
  unfold Route.value Route.elems
  simp only [List.map_append, List.map_cons, List.map_nil, List.flatten_append, List.flatten_cons, List.flatten_nil, List.append_assoc, List.append_nil, optRaw_wire s.expiration (durRaw 109) (fun d => nniTlv 109 (toU64 d)) (fun _ => rfl), numRaw, durRaw, binaryBlock, nniTlv]

theorem Route.elems_bin (s : Route) : ∀ e ∈ s.elems, IsBin e :=
  bin_cons ⟨_, _, by decide, by decide, rfl⟩ (bin_cons ⟨_, _, by decide, by decide, rfl⟩ (bin_cons ⟨_, _, by decide, by decide, rfl⟩ (bin_cons ⟨_, _, by decide, by decide, rfl⟩ (bin_opt (fun _ => ⟨_, _, by decide, by decide, rfl⟩) bin_nil))))

theorem Route.laid {s : Route} (h : s.Ok) : Laid s.elems s.grammar := by
  obtain ⟨h0, h1, h2, h3, h4⟩ := h
  exact laid_one rfl (numRaw_u64 h0) (laid_one rfl (numRaw_num h1 (by decide)) (laid_one rfl (numRaw_u64 h2) (laid_one rfl (numRaw_u64 h3) (laid_opt (fun _ => rfl) (fun a ha => durRaw_signed (h4 a ha)) headNe_nil trivial))))

end Ndn.Nfd
