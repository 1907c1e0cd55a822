import Verif.Nfd.ItemsProps
import Verif.Mgmt.ParamsProps
/-
C85–C87, C89, C90: the hypotheses of the theorems in ItemsProps are met; what a failed decoding leaves; time points out of
range; restrictions that decoding a filter loses; equality of entries; flag bits of faces.
-/
namespace Ndn.Nfd
open Tlv Tlv.Spec Block Block.Spec Name Packet Packet.Spec Mgmt

/-! ### The hypotheses are met -/

theorem all_none {α : Type} {P : α → Prop} : All P none := by intro a h; cases h
theorem all_some {α : Type} {P : α → Prop} {a : α} (h : P a) : All P (some a) := by intro b hb; cases hb; exact h

def sampleResponse : Response := { code := 404, text := [78, 111], body := some (numRaw 105 7) }
theorem sampleResponse_ok : sampleResponse.Ok :=
  ⟨by decide, all_some (numRaw_wf (by decide) (by decide)), by decide⟩
example : ∃ o, Response.codec.run Response.apply
    [.set (.code 404), .encode, .set (.text [78, 111]), .decode (Response.codec.encode sampleResponse), .set (.code 403)]
    ⟨none, {}⟩ = some o ∧ o.v.code = 403 ∧ o.v.text = [78, 111] :=
  ⟨_, rfl, rfl, rfl⟩

example : ({ localUri := [117, 100, 112] } : Channel).Ok := by show _ < _; decide

def sampleCs : CsInfo := { capacity := 65536, admit := true, nEntries := 3, nHits := 300, nMisses := 2 ^ 40 }
theorem sampleCs_ok : sampleCs.Ok := ⟨by show _ < _; decide, by show _ < _; decide, by show _ < _; decide, by show _ < _; decide⟩
example : ∃ o, CsInfo.codec.run CsInfo.apply
    [.set (.capacity 5), .encode, .set (.enableAdmit true), .decode (CsInfo.codec.encode sampleCs), .set (.nHits 1), .encode]
    ⟨none, {}⟩ = some o ∧ o.v = { sampleCs with nHits := 1 } :=
  ⟨_, rfl, rfl⟩

def sampleEvent : FaceEvent :=
  { kind := 1, faceId := 261, remoteUri := [117], localUri := [118], scope := 1, persistency := 2, linkType := 1, flags := 5 }
example : sampleEvent.Ok :=
  ⟨by decide, by show _ < _; decide, by decide, by decide, by decide, by show _ < _; decide, by decide⟩
example : ∃ o, FaceEvent.codec.run FaceEvent.apply
    [.encode, .decode (FaceEvent.codec.encode sampleEvent), .set (.kind 2), .encode] ⟨none, {}⟩ = some o ∧
    o.v = { sampleEvent with kind := 2 } := ⟨_, rfl, rfl⟩

def sampleFace : FaceStatus :=
  { faceId := 300, remoteUri := [117], localUri := [118], expiration := some (-1), interval := some 5, mtu := some 8800,
    nInInterests := 2 ^ 63, flags := 7 }
theorem sampleFace_ok : sampleFace.Ok :=
  ⟨by show _ < _; decide, all_some (by simp only [I64]; decide), by decide, by decide, by decide,
   all_some (by simp only [I64]; decide), all_none, all_some (by show _ < _; decide), by show _ < _; decide,
   by show _ < _; decide, by show _ < _; decide, by show _ < _; decide, by show _ < _; decide, by show _ < _; decide,
   by show _ < _; decide, by show _ < _; decide, by show _ < _; decide, by decide⟩
example : ∃ o, FaceStatus.codec.run FaceStatus.apply
    [.set (.faceId 9), .decode (FaceStatus.codec.encode sampleFace), .set .unsetMtu, .encode] ⟨none, {}⟩ = some o ∧
    o.v = { sampleFace with mtu := none } := ⟨_, rfl, rfl⟩

def sampleHop : NextHop := { faceId := 262, cost := 10 }
example : sampleHop.Ok := ⟨by show _ < _; decide, by show _ < _; decide⟩

def sampleName : List Comp := [⟨8, [65]⟩, ⟨8, [66, 67]⟩]
theorem sampleName_wf : NameWF sampleName := by
  unfold NameWF sampleName
  decide

def sampleFib : Fib := { pfx := sampleName, hops := [sampleHop, { faceId := 1, cost := 0 }] }
example : sampleFib.Ok := by
  refine ⟨sampleName_wf, ?_, by decide⟩
  intro h hm
  simp only [sampleFib, List.mem_cons, List.not_mem_nil, or_false] at hm
  rcases hm with rfl | rfl <;> exact ⟨by show _ < _; decide, by show _ < _; decide⟩
example : ∃ o, Fib.codec.run Fib.apply
    [.set (.addHop sampleHop), .encode, .decode (Fib.codec.encode sampleFib), .set (.addHop sampleHop), .encode]
    ⟨none, {}⟩ = some o ∧ o.v = { sampleFib with hops := sampleFib.hops ++ [sampleHop] } := ⟨_, rfl, rfl⟩

def sampleRoute : Route := { faceId := 1, origin := 65, cost := 20, flags := 3, expiration := some 3600000 }
example : sampleRoute.Ok :=
  ⟨by show _ < _; decide, by decide, by show _ < _; decide, by show _ < _; decide, all_some (by simp only [I64]; decide)⟩

def sampleRib : Rib := { name := sampleName, routes := [sampleRoute, {}] }
example : sampleRib.Ok := by
  refine ⟨sampleName_wf, ?_, by decide⟩
  intro h hm
  simp only [sampleRib, List.mem_cons, List.not_mem_nil, or_false] at hm
  rcases hm with rfl | rfl
  · exact ⟨by show _ < _; decide, by decide, by show _ < _; decide, by show _ < _; decide,
      all_some (by simp only [I64]; decide)⟩
  · exact ⟨by show _ < _; decide, by decide, by show _ < _; decide, by show _ < _; decide, all_none⟩

example : ({ name := sampleName, strategy := [⟨8, [83]⟩] } : Choice).Ok := by
  refine ⟨sampleName_wf, ?_, by decide⟩
  unfold NameWF
  decide

def sampleForwarder : Forwarder := { version := [48], start := 1700000000123000000, current := 1700000000456000000, nFib := 4 }
example : sampleForwarder.Ok := by
  refine ⟨?_, ?_, ?_, ?_, ?_, ?_, ?_, ?_, ?_, ?_, ?_, ?_, ?_, ?_, ?_, ?_⟩ <;> first | decide | (simp only [I64, U64]; decide)

def sampleFilter : Filter := { faceId := some 5, uriScheme := [117, 100, 112], scope := some 1 }
theorem sampleFilter_ok : sampleFilter.Ok :=
  ⟨all_some (by show _ < _; decide), all_some (by decide), all_none, all_none, by decide⟩

/-! ### C85, C86: after an exception -/

/-- The claim: after a decoding that throws, encoding the object gives something that decodes, to its current fields. -/
def C85_failed_claim : Prop := ∀ (o o' : Obj Response) (b : Raw), RawWF b →
  o.wire = none → o.v.Ok → Response.codec.wireDecode o b = (.threw, o') →
  ∃ o2, Response.codec.wireDecode ⟨none, {}⟩ (Response.codec.wireEncode o').2 = (.ok, o2) ∧ o2.v = o'.v

/-- It is false: an element that has the StatusCode but no StatusText is refused, but the object is emptied, takes the
code of the refused element, and encodes to the refused element. -/
theorem C85_failed_counterexample : ¬ C85_failed_claim := by
  intro h
  obtain ⟨o2, h1, -⟩ := h ⟨none, {}⟩ ⟨some (binaryBlock 101 (nniTlv 102 500)), { code := 500 }⟩
    (binaryBlock 101 (nniTlv 102 500)) (binaryBlock_wf (by decide) (by decide) (by decide)) rfl
    ⟨by decide, all_none, by decide⟩ rfl
  have h2 := congrArg Prod.fst h1
  dsimp only at h2
  revert h2
  clear h1 o2
  decide

/-- What does hold of every structure: an element of another type changes nothing. -/
theorem C85_failed_partial {σ : Type} (c : Codec σ) (o : Obj σ) (b : Raw) (h : b.type ≠ c.type) :
    c.wireDecode o b = (.threw, o) := by
  unfold Codec.wireDecode
  rw [if_pos h]

/-- The same claim for a face status. -/
def C86_failed_claim : Prop := ∀ (o o' : Obj FaceStatus) (b : Raw), RawWF b →
  o.wire = none → o.v.Ok → FaceStatus.codec.wireDecode o b = (.threw, o') →
  ∃ o2, FaceStatus.codec.wireDecode ⟨none, {}⟩ (FaceStatus.codec.wireEncode o').2 = (.ok, o2) ∧ o2.v = o'.v

/-- After a failed decode the encoding is that of the rejected element, not that of the fields. -/
theorem C86_failed_counterexample : ¬ C86_failed_claim := by
  intro h
  obtain ⟨o2, h1, -⟩ := h ⟨none, {}⟩ ⟨some (binaryBlock 128 (nniTlv 105 5)), { faceId := 5 }⟩
    (binaryBlock 128 (nniTlv 105 5)) (binaryBlock_wf (by decide) (by decide) (by decide)) rfl
    ⟨by show _ < _; decide, all_none, by decide, by decide, by decide, all_none, all_none, all_none, by show _ < _; decide,
     by show _ < _; decide, by show _ < _; decide, by show _ < _; decide, by show _ < _; decide, by show _ < _; decide,
     by show _ < _; decide, by show _ < _; decide, by show _ < _; decide, by decide⟩ rfl
  have h2 := congrArg Prod.fst h1
  dsimp only at h2
  revert h2
  clear h1 o2
  decide

/-! ### C86: time points -/

/-- The claim of ItemsProps is false: a start time beyond the year 2262 is undefined behaviour. -/
theorem C86_forwarder_decode_counterexample : ¬ C86_forwarder_decode_claim := by
  intro h
  refine h ⟨none, {}⟩ (binaryBlock 21 (tlvBytes 128 [] ++ nniTlv 129 (2 ^ 44)))
    (binaryBlock_wf (by decide) (by decide) (by decide)) ?_
  decide

/-- The values of the timestamps among the elements are ones a time point can hold. -/
def TimesFit (b : Raw) : Prop :=
  ∀ es, ReadsAs b.value es → ∀ e ∈ es, e.type = 129 ∨ e.type = 130 → ∀ n, NniForm e.value n → n * 1000000 < 2 ^ 63

/-- A block that reads an element with `P` does not run into undefined behaviour. -/
def StepSafe {σ : Type} (P : Raw → Prop) : Step σ → Prop
  | .req t f => ∀ s e, P e → e.type = t → f s e ≠ .ub
  | .opt t f _ => ∀ s e, P e → e.type = t → f s e ≠ .ub

theorem runSteps_not_ub {σ : Type} (P : Raw → Prop) : ∀ (k : List (Step σ)), (∀ st ∈ k, StepSafe P st) →
    ∀ s es, (∀ e ∈ es, P e) → (runSteps k s es).1 ≠ .ub := by
  intro k
  induction k with
  | nil => intro _ s es _; simp [runSteps]
  | cons st k ih =>
    intro h s es hP
    have ih := ih (fun x hx => h x (List.mem_cons_of_mem _ hx))
    have hst := h st (List.mem_cons_self ..)
    cases st with
    | req t f =>
      simp only [runSteps]
      cases es with
      | nil => simp
      | cons e rest =>
        simp only
        split
        · rename_i ht
          have h1 := hst s e (hP e (List.mem_cons_self ..)) ht
          split
          · exact ih _ _ fun x hx => hP x (List.mem_cons_of_mem _ hx)
          · simp
          · rename_i hu; exact absurd hu h1
        · simp
    | opt t f c =>
      simp only [runSteps]
      cases es with
      | nil => exact ih _ _ hP
      | cons e rest =>
        simp only
        split
        · rename_i ht
          have h1 := hst s e (hP e (List.mem_cons_self ..)) ht
          split
          · exact ih _ _ fun x hx => hP x (List.mem_cons_of_mem _ hx)
          · simp
          · rename_i hu; exact absurd hu h1
        · exact ih _ _ hP

theorem map_not_ub {α β : Type} {f : α → β} {r : Rd α} (h : r ≠ .ub) : r.map f ≠ .ub := by
  cases r <;> simp_all [Rd.map]

theorem of_not_ub {α : Type} (o : Option α) : Rd.of o ≠ .ub := by cases o <;> simp [Rd.of]

theorem num_not_ub (e : Raw) : num e ≠ .ub := of_not_ub _

theorem timestamp_not_ub {e : Raw} (h : ∀ n, NniForm e.value n → n * 1000000 < 2 ^ 63) : timestamp e ≠ .ub := by
  unfold timestamp
  split
  · simp
  · rename_i n hn
    have h1 := h n (readNniValue_iff.1 hn)
    rw [if_pos]
    · simp
    · unfold toI64
      split <;> omega

/-- When the times can be held, decoding succeeds or throws. -/
theorem C86_forwarder_decode_partial (o : Obj Forwarder) (b : Raw) (h : TimesFit b) :
    (Forwarder.codec.wireDecode o b).1 ≠ .ub := by
  unfold Codec.wireDecode
  split
  · simp
  · split
    · simp
    · rename_i es hes
      have hr := parseElements_iff.1 hes
      simp only
      refine runSteps_not_ub
        (fun e => e.type = 129 ∨ e.type = 130 → ∀ n, NniForm e.value n → n * 1000000 < 2 ^ 63) _ ?_ _ es (h es hr)
      intro st hst
      simp only [Forwarder.steps, List.mem_cons, List.not_mem_nil, or_false] at hst
      rcases hst with rfl | rfl | rfl | rfl | rfl | rfl | rfl | rfl | rfl | rfl | rfl | rfl | rfl | rfl | rfl | rfl <;>
        intro s e hp ht <;> first
        | exact map_not_ub (num_not_ub e)
        | exact map_not_ub (timestamp_not_ub (hp (by first | exact .inl ht | exact .inr ht)))
        | exact map_not_ub (by simp [text])

example : TimesFit (Forwarder.codec.encode sampleForwarder) ∧
    (Forwarder.codec.wireDecode ⟨none, {}⟩ (Forwarder.codec.encode sampleForwarder)).1 = .ok := by
  refine ⟨?_, by decide⟩
  intro es hes e he ht n hn
  have h1 : parseElements (Forwarder.codec.encode sampleForwarder).value = some es := parseElements_iff.2 hes
  have h2 : (parseElements (Forwarder.codec.encode sampleForwarder).value).all (fun es => es.all fun e =>
      !(decide (e.type = 129) || decide (e.type = 130)) || ((readNniValue e.value).all fun n => decide (n * 1000000 < 2 ^ 63))) = true := by
    decide
  rw [h1] at h2
  simp only [Option.all_some, List.all_eq_true] at h2
  have h3 := h2 e he
  rw [readNniValue_iff.2 hn] at h3
  rcases ht with ht | ht <;> simpa [ht] using h3

/-! ### C87: what a filter means -/

/-- The claim: a restriction in the element is a restriction of the decoded filter. -/
def C87_reflected_claim : Prop := ∀ (o : Obj Filter) (b : Raw) (w : Option Raw) (s : Filter) (es : List Raw), RawWF b →
  Filter.codec.wireDecode o b = (.ok, ⟨w, s⟩) → ReadsAs b.value es → (∃ e ∈ es, e.type = 105) → s.faceId.isSome

/-- It is false: elements that come after one of a later type are passed over, so a filter on one face that mentions the
scheme first selects every face of the scheme. -/
theorem C87_reflected_counterexample : ¬ C87_reflected_claim := by
  intro h
  have := h ⟨none, {}⟩ (binaryBlock 150 (tlvBytes 131 [117] ++ nniTlv 105 5))
    (some (binaryBlock 150 (tlvBytes 131 [117] ++ nniTlv 105 5))) { uriScheme := [117] }
    [binaryBlock 131 [117], numRaw 105 5] (binaryBlock_wf (by decide) (by decide) (by decide)) rfl
    ⟨rfl, by
      intro e he
      simp only [List.mem_cons, List.not_mem_nil, or_false] at he
      rcases he with rfl | rfl
      · exact binaryBlock_wf (by decide) (by decide) (by decide)
      · exact numRaw_wf (by decide) (by decide)⟩
    ⟨numRaw 105 5, by simp, rfl⟩
  exact absurd this (by decide)

/-- The type of an item. -/
def Item.type : Item → Nat
  | .one t _ => t
  | .may t _ _ => t

theorem laid_all : ∀ (items : List Item) (es : List Raw), Laid es items →
    (es.map Raw.type).Sublist (items.map Item.type) → (items.map Item.type).Nodup →
    ∀ t P a, Item.may t P a ∈ items → (∃ e ∈ es, e.type = t ∧ P e) ∨ (a ∧ ∀ e ∈ es, e.type ≠ t) := by
  intro items
  induction items with
  | nil => intro es _ _ _ t P a h; cases h
  | cons i is ih =>
    intro es hl hs hn t P a hm
    simp only [List.map_cons, List.nodup_cons] at hn
    -- the tail
    have tail : ∀ es', Laid es' is → (es'.map Raw.type).Sublist (is.map Item.type) →
        Item.may t P a ∈ is → (∃ e ∈ es', e.type = t ∧ P e) ∨ (a ∧ ∀ e ∈ es', e.type ≠ t) :=
      fun es' h1 h2 h3 => ih es' h1 h2 hn.2 t P a h3
    have taken : ∀ e rest, es = e :: rest → e.type = i.type → Laid rest is →
        (rest.map Raw.type).Sublist (is.map Item.type) ∧
        (Item.may t P a ∈ is → (∃ e ∈ es, e.type = t ∧ P e) ∨ (a ∧ ∀ e ∈ es, e.type ≠ t)) := by
      intro e rest he ht hl'
      have h1 : (rest.map Raw.type).Sublist (is.map Item.type) := by
        rw [he, List.map_cons, List.map_cons, ht] at hs
        exact List.cons_sublist_cons.1 hs
      refine ⟨h1, fun h3 => ?_⟩
      rcases tail rest hl' h1 h3 with ⟨x, hx, hp⟩ | ⟨ha, hno⟩
      · exact .inl ⟨x, he ▸ List.mem_cons_of_mem _ hx, hp⟩
      · refine .inr ⟨ha, fun x hx => ?_⟩
        rw [he] at hx
        rcases List.mem_cons.1 hx with rfl | hx
        · intro hxt
          apply hn.1
          rw [← ht, hxt]
          exact List.mem_map.2 ⟨_, h3, rfl⟩
        · exact hno x hx
    have skip : (∀ e rest, es = e :: rest → e.type ≠ i.type) → (es.map Raw.type).Sublist (is.map Item.type) := by
      intro hne
      cases es with
      | nil => exact List.nil_sublist _
      | cons e rest =>
        have hne := hne e rest rfl
        rw [List.map_cons, List.map_cons] at hs
        rw [List.map_cons]
        generalize i.type = ti at hs hne
        generalize e.type = te at hs hne ⊢
        cases hs with
        | cons _ h => exact h
        | cons_cons _ h => exact absurd rfl hne
    cases i with
    | one t' P' =>
      obtain ⟨e, rest, he, ht, hp, hl'⟩ := hl
      have h3 : Item.may t P a ∈ is := by
        rcases List.mem_cons.1 hm with h | h
        · cases h
        · exact h
      exact (taken e rest he ht hl').2 h3
    | may t' P' a' =>
      rcases hl with ⟨e, rest, he, ht, hp, hl'⟩ | ⟨hne, ha, hl'⟩
      · rcases List.mem_cons.1 hm with h | h
        · cases h
          exact .inl ⟨e, he ▸ List.mem_cons_self .., ht, hp⟩
        · exact (taken e rest he ht hl').2 h
      · have hs' := skip hne
        rcases List.mem_cons.1 hm with h | h
        · cases h
          refine .inr ⟨ha, fun x hx hxt => hn.1 ?_⟩
          subst hxt
          exact hs'.subset (List.mem_map.2 ⟨x, hx, rfl⟩)
        · exact tail es hl' hs' h

theorem unique_type : ∀ (es : List Raw), (es.map Raw.type).Nodup →
    ∀ a ∈ es, ∀ b ∈ es, a.type = b.type → a = b := by
  intro es
  induction es with
  | nil => intro _ a h; cases h
  | cons e es ih =>
    intro hn a ha b hb hab
    rw [List.map_cons, List.nodup_cons] at hn
    rcases List.mem_cons.1 ha with rfl | ha' <;> rcases List.mem_cons.1 hb with rfl | hb'
    · rfl
    · exact absurd (List.mem_map.2 ⟨b, hb', hab.symm⟩) hn.1
    · exact absurd (List.mem_map.2 ⟨a, ha', hab⟩) hn.1
    · exact ih hn.2 a ha' b hb' hab

/-- A number in the filter stands for the element of its type, and there is one exactly when there is one. -/
def Restricts (es : List Raw) (t : Nat) (o : Option Nat) : Prop :=
  (∀ n, o = some n → ∃ e ∈ es, e.type = t ∧ NniForm e.value n) ∧ (o = none → ∀ e ∈ es, e.type ≠ t)

/-- So does a string; an empty string is no restriction. -/
def RestrictsText (es : List Raw) (t : Nat) (x : Bytes) : Prop :=
  (x ≠ [] → ∃ e ∈ es, e.type = t ∧ e.value = x) ∧ (x = [] → ∀ e ∈ es, e.type = t → e.value = [])

/-- When the elements come in the order of the specification and there are no others, the filter has exactly the
restrictions of the element. -/
theorem C87_reflected_partial (o : Obj Filter) (b : Raw) (w : Option Raw) (s : Filter) (es : List Raw)
    (h : Filter.codec.wireDecode o b = (.ok, ⟨w, s⟩)) (hes : ReadsAs b.value es)
    (horder : (es.map Raw.type).Sublist [105, 131, 114, 129, 132, 133, 134]) :
    Restricts es 105 s.faceId ∧ RestrictsText es 131 s.uriScheme ∧ RestrictsText es 114 s.remoteUri ∧
    RestrictsText es 129 s.localUri ∧ Restricts es 132 s.scope ∧ Restricts es 133 s.persistency ∧
    Restricts es 134 s.linkType := by
  obtain ⟨-, -, es', hes', hl⟩ := (C87_decode o b w s).1 h
  have : es' = es := by
    have h1 := parseElements_iff.2 hes
    have h2 := parseElements_iff.2 hes'
    rw [h1] at h2
    exact (Option.some.inj h2).symm
  subst this
  have hnd : ([105, 131, 114, 129, 132, 133, 134] : List Nat).Nodup := by decide
  have key := laid_all s.grammar es' hl (by exact horder) (by exact hnd)
  have uniq := unique_type es' (hnd.sublist horder)
  have number : ∀ t (R : Raw → Nat → Prop) (o : Option Nat), (∀ e n, R e n → NniForm e.value n) →
      optional t R o ∈ s.grammar → Restricts es' t o := by
    intro t R o hR hm
    rcases key _ _ _ hm with ⟨e, he, ht, a, ha, hr⟩ | ⟨ha, hno⟩
    · refine ⟨fun n hn => ?_, fun hn => ?_⟩
      · rw [ha] at hn; cases hn; exact ⟨e, he, ht, hR _ _ hr⟩
      · rw [ha] at hn; cases hn
    · exact ⟨(fun n hn => by rw [ha] at hn; cases hn), fun _ => hno⟩
  have string : ∀ t x, optionalText t x ∈ s.grammar → RestrictsText es' t x := by
    intro t x hm
    rcases key _ _ _ hm with ⟨e, he, ht, hx⟩ | ⟨ha, hno⟩
    · refine ⟨fun _ => ⟨e, he, ht, hx.symm⟩, fun h0 e' he' ht' => ?_⟩
      rw [uniq e' he' e he (ht'.trans ht.symm), ← hx, h0]
    · exact ⟨fun hn => absurd ha hn, fun _ e' he' ht' => absurd ht' (hno e' he')⟩
  have h255 : ∀ e n, IsNum 255 e n → NniForm e.value n := fun e n h => h.1
  exact ⟨number 105 IsU64 s.faceId (fun _ _ h => h) (by simp only [Filter.grammar, List.mem_cons, true_or, or_true]),
    string 131 s.uriScheme (by simp only [Filter.grammar, List.mem_cons, true_or, or_true]),
    string 114 s.remoteUri (by simp only [Filter.grammar, List.mem_cons, true_or, or_true]),
    string 129 s.localUri (by simp only [Filter.grammar, List.mem_cons, true_or, or_true]),
    number 132 (IsNum 255) s.scope h255 (by simp only [Filter.grammar, List.mem_cons, true_or, or_true]),
    number 133 (IsNum 255) s.persistency h255 (by simp only [Filter.grammar, List.mem_cons, true_or, or_true]),
    number 134 (IsNum 255) s.linkType h255 (by simp only [Filter.grammar, List.mem_cons, true_or, or_true])⟩

example : Filter.codec.wireDecode ⟨none, {}⟩ (Filter.codec.encode sampleFilter) =
      (.ok, ⟨some (Filter.codec.encode sampleFilter), sampleFilter⟩) ∧
    ((parseElements (Filter.codec.encode sampleFilter).value).map (·.map Raw.type)) = some [105, 131, 132] := ⟨rfl, rfl⟩

theorem writeVarNumber_pos (n : Nat) : 0 < (writeVarNumber n).length := by
  rw [writeVarNumber_length]; unfold sizeOfVarNumber; (repeat' split) <;> omega

/-- A filter is empty exactly when it has no restriction, and then its encoding is an element with nothing in it. -/
theorem C87_empty (s : Filter) : (s.empty = true ↔ s = {}) ∧ (s.empty = true ↔ (Filter.codec.encode s).value = []) := by
  have h1 : s.empty = true ↔ s = {} := by
    cases s
    simp [Filter.empty, and_assoc]
  refine ⟨h1, ?_⟩
  rw [h1]
  constructor
  · rintro rfl; rfl
  · intro h
    have h : s.value = [] := h
    have hv : ∀ t v, tlvBytes t v ≠ [] := by
      intro t v h0
      have h1 := tlvBytes_length t v
      have h2 := writeVarNumber_pos t
      rw [h0, List.length_nil] at h1
      omega
    have hn : ∀ (o : Option Nat) t, optElem o (nniTlv t) = [] → o = none := by
      intro o t h0
      cases o with
      | none => rfl
      | some n => exact absurd h0 (hv _ _)
    have ht : ∀ t v, textElem t v = [] → v = [] := by
      intro t v h0
      unfold textElem at h0
      split at h0
      · assumption
      · exact absurd h0 (hv _ _)
    simp only [Filter.value, List.append_eq_nil_iff] at h
    obtain ⟨⟨⟨⟨⟨⟨h1, h2⟩, h3⟩, h4⟩, h5⟩, h6⟩, h7⟩ := h
    cases s
    simp only at h1 h2 h3 h4 h5 h6 h7
    rw [hn _ _ h1, ht _ _ h2, ht _ _ h3, ht _ _ h4, hn _ _ h5, hn _ _ h6, hn _ _ h7]

/-! ### C89: equality of entries -/

/-- The records not yet matched. -/
def unmatched {α : Type} : List α → List Bool → List α
  | b :: bs, m :: ms => if m then unmatched bs ms else b :: unmatched bs ms
  | _, _ => []

theorem markFirst_some {α : Type} [DecidableEq α] (x : α) : ∀ (bs : List α) (ms ms' : List Bool),
    markFirst x bs ms = some ms' → (unmatched bs ms).Perm (x :: unmatched bs ms') := by
  intro bs
  induction bs with
  | nil => intro ms ms' h; simp [markFirst] at h
  | cons b bs ih =>
    intro ms ms' h
    cases ms with
    | nil => simp [markFirst] at h
    | cons m ms =>
      simp only [markFirst] at h
      split at h
      · rename_i hc
        simp only [Bool.and_eq_true, Bool.not_eq_true', decide_eq_true_eq] at hc
        obtain ⟨rfl, rfl⟩ := hc
        cases h
        simp [unmatched]
      · obtain ⟨m2, h2, rfl⟩ := Option.map_eq_some_iff.1 h
        have := ih _ _ h2
        cases m with
        | true => simpa [unmatched] using this
        | false =>
          simp only [unmatched, Bool.false_eq_true, if_false]
          exact (this.cons b).trans (List.Perm.swap ..)

theorem markFirst_none {α : Type} [DecidableEq α] (x : α) : ∀ (bs : List α) (ms : List Bool),
    markFirst x bs ms = none → x ∉ unmatched bs ms := by
  intro bs
  induction bs with
  | nil => intro ms _; simp [unmatched]
  | cons b bs ih =>
    intro ms h
    cases ms with
    | nil => simp [unmatched]
    | cons m ms =>
      simp only [markFirst] at h
      split at h
      · cases h
      · rename_i hc
        have := ih _ (Option.map_eq_none_iff.1 h)
        cases m with
        | true => simpa [unmatched] using this
        | false =>
          simp only [Bool.not_false, Bool.true_and, decide_eq_true_eq] at hc
          simp only [unmatched, Bool.false_eq_true, if_false, List.mem_cons, not_or]
          exact ⟨fun hx => hc hx.symm, this⟩

theorem allMatched_iff {α : Type} [DecidableEq α] (bs : List α) : ∀ (xs : List α) (m : List Bool),
    allMatched bs xs m = true ↔ ∃ rest, (unmatched bs m).Perm (xs ++ rest) := by
  intro xs
  induction xs with
  | nil => intro m; simp only [allMatched, true_iff]; exact ⟨_, List.Perm.refl _⟩
  | cons x xs ih =>
    intro m
    simp only [allMatched]
    split
    · rename_i m' hm
      have hp := markFirst_some x bs m m' hm
      rw [ih]
      constructor
      · rintro ⟨rest, hr⟩; exact ⟨rest, hp.trans (hr.cons x)⟩
      · rintro ⟨rest, hr⟩; exact ⟨rest, List.Perm.cons_inv (hp.symm.trans hr)⟩
    · rename_i hm
      have hx := markFirst_none x bs m hm
      simp only [Bool.false_eq_true, false_iff, not_exists]
      intro rest hr
      exact hx (hr.mem_iff.2 (by simp))

theorem unmatched_all {α : Type} (bs : List α) : unmatched bs (List.replicate bs.length false) = bs := by
  induction bs with
  | nil => rfl
  | cons b bs ih => simp only [List.length_cons, List.replicate_succ, unmatched, Bool.false_eq_true, if_false, ih]

theorem sameRecords_iff {α : Type} [DecidableEq α] (as bs : List α) : sameRecords as bs = true ↔ as.Perm bs := by
  unfold sameRecords
  rw [Bool.and_eq_true, decide_eq_true_eq, allMatched_iff, unmatched_all]
  constructor
  · rintro ⟨hl, rest, hr⟩
    have := hr.length_eq
    rw [List.length_append] at this
    have : rest = [] := List.eq_nil_of_length_eq_zero (by omega)
    subst this
    rw [List.append_nil] at hr
    exact hr.symm
  · intro h
    exact ⟨h.length_eq, [], by rw [List.append_nil]; exact h.symm⟩

/-- Two FIB entries are equal exactly when they have the same prefix and the same next hops, each as many times, in any
order. -/
theorem C89_fib (a b : Fib) : Fib.eq a b = true ↔ a.pfx = b.pfx ∧ a.hops.Perm b.hops := by
  unfold Fib.eq
  rw [Bool.and_eq_true, decide_eq_true_eq, sameRecords_iff]

/-- So are RIB entries. -/
theorem C89_rib (a b : Rib) : Rib.eq a b = true ↔ a.name = b.name ∧ a.routes.Perm b.routes := by
  unfold Rib.eq
  rw [Bool.and_eq_true, decide_eq_true_eq, sameRecords_iff]

/-- Equality of FIB entries is an equivalence. -/
theorem C89_fib_equivalence : Equivalence (fun a b => Fib.eq a b = true) where
  refl a := (C89_fib a a).2 ⟨rfl, .refl _⟩
  symm h := by rw [C89_fib] at *; exact ⟨h.1.symm, h.2.symm⟩
  trans h1 h2 := by rw [C89_fib] at *; exact ⟨h1.1.trans h2.1, h1.2.trans h2.2⟩

theorem C89_rib_equivalence : Equivalence (fun a b => Rib.eq a b = true) where
  refl a := (C89_rib a a).2 ⟨rfl, .refl _⟩
  symm h := by rw [C89_rib] at *; exact ⟨h.1.symm, h.2.symm⟩
  trans h1 h2 := by rw [C89_rib] at *; exact ⟨h1.1.trans h2.1, h1.2.trans h2.2⟩

example : Fib.eq { hops := [⟨1, 10⟩, ⟨2, 10⟩, ⟨1, 10⟩] } { hops := [⟨1, 10⟩, ⟨1, 10⟩, ⟨2, 10⟩] } = true ∧
    Fib.eq { hops := [⟨1, 10⟩, ⟨2, 10⟩, ⟨1, 10⟩] } { hops := [⟨1, 10⟩, ⟨2, 10⟩, ⟨2, 10⟩] } = false := by decide

/-! ### C90: flag bits of faces -/

/-- The claim: for every bit below 64, setting it sets it as asked and changes no other; reading it reads it. -/
def C90_bits_claim : Prop := ∀ (flags b : Nat) (v : Bool), flags < 2 ^ 64 → b < 64 →
  (∃ q, setFlagBit flags b v = .ok q ∧ q < 2 ^ 64 ∧ ∀ i, q.testBit i = if i = b then v else flags.testBit i) ∧
  getFlagBit flags b = .ok (flags.testBit b)

/-- It is false: setting bit 31 sets bits 32 to 63 too, and setting bit 32 is undefined behaviour. -/
theorem C90_bits_counterexample : ¬ C90_bits_claim := by
  intro h
  obtain ⟨⟨q, h1, -, h2⟩, -⟩ := h 0 31 true (by decide) (by decide)
  have h3 : setFlagBit 0 31 true = .ok (2 ^ 64 - 2 ^ 31) := by decide
  rw [h3] at h1
  cases h1
  exact absurd (h2 40) (by decide)

theorem C90_bits_undefined (flags b : Nat) (v : Bool) (h : 32 ≤ b) (h2 : b < 64) :
    setFlagBit flags b v = .ub ∧ getFlagBit flags b = .ub := by
  have hs : shl1 b = none := by unfold shl1; rw [if_neg (by omega), if_neg (by omega)]
  unfold setFlagBit getFlagBit
  simp only [hs, if_neg (show ¬ b ≥ 64 by omega)]
  exact ⟨trivial, trivial⟩

/-- It holds for every bit below 31. -/
theorem C90_bits_partial (flags b : Nat) (v : Bool) (hf : flags < 2 ^ 64) (h : b < 31) :
    (∃ q, setFlagBit flags b v = .ok q ∧ q < 2 ^ 64 ∧ ∀ i, q.testBit i = if i = b then v else flags.testBit i) ∧
    getFlagBit flags b = .ok (flags.testBit b) := by
  constructor
  · unfold setFlagBit
    rw [if_neg (by omega)]
    simp only [shl1_low h, toU64_two_pow h, toU64_compl h]
    refine ⟨_, rfl, ?_, ?_⟩
    · have h1 := two_pow_lt h
      split
      · exact Nat.or_lt_two_pow hf (by omega)
      · exact Nat.lt_of_le_of_lt Nat.and_le_left hf
    · intro i
      cases v with
      | true =>
        rw [if_pos rfl]
        have := or_bits (some flags) b i
        simp only [bitOf, Option.getD_some] at this
        rw [this]
        by_cases hi : i = b <;> simp [hi]
      | false =>
        rw [if_neg (by decide)]
        have := and_bits (o := some flags) (by intro x hx; cases hx; exact hf) h i
        simp only [bitOf, Option.getD_some] at this
        rw [this]
        by_cases hi : i = b <;> simp [hi]
  · unfold getFlagBit
    rw [if_neg (by omega)]
    simp only [shl1_low h, toU64_two_pow h, and_pow_ne]

/-- A bit number of 64 or more is refused. -/
theorem C90_bits_range (flags b : Nat) (v : Bool) (h : 64 ≤ b) :
    setFlagBit flags b v = .outOfRange ∧ getFlagBit flags b = .outOfRange := by
  unfold setFlagBit getFlagBit
  simp [h]

example : setFlagBit (2 ^ 40 + 4) 1 true = .ok (2 ^ 40 + 6) ∧ setFlagBit (2 ^ 40 + 4) 2 false = .ok (2 ^ 40) ∧
    getFlagBit (2 ^ 40 + 4) 2 = .ok true := by decide

end Ndn.Nfd
