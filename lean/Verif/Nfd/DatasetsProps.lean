import Verif.Nfd.Datasets
import Verif.Nfd.ItemsProps2
/-
C88: the datasets of NFD.
-/
namespace Ndn.Nfd
open Tlv Tlv.Spec Block Block.Spec Name Packet Packet.Spec Mgmt

/-! ### Specification -/

/-- The element has this type and its elements mean `s`. -/
def HoldsBy {σ : Type} (t : Nat) (M : List Raw → σ → Prop) (e : Raw) (s : σ) : Prop :=
  e.type = t ∧ ∃ es, ReadsAs e.value es ∧ M es s

/-- The payload is a sequence of elements, one for each item. -/
def Listed {σ : Type} (t : Nat) (M : List Raw → σ → Prop) (payload : Bytes) (l : List σ) : Prop :=
  ∃ es, ReadsAs payload es ∧ Each (HoldsBy t M) es l

/-- What the payload of each dataset says. -/
def Dataset.Says (d : Dataset) (payload : Bytes) (r : Result) : Prop :=
  match d with
  | .general => ∃ s es, r = .general s ∧ ReadsAs payload es ∧ Laid es s.grammar
  | .faces => ∃ l, r = .faces l ∧ Listed 128 (fun es s => Laid es (FaceStatus.grammar s)) payload l
  | .query _ => ∃ l, r = .faces l ∧ Listed 128 (fun es s => Laid es (FaceStatus.grammar s)) payload l
  | .channels => ∃ l, r = .channels l ∧ Listed 130 (fun es s => Laid es (Channel.grammar s)) payload l
  | .fib => ∃ l, r = .fib l ∧ Listed 128 Fib.Means payload l
  | .cs => ∃ s b, r = .cs s ∧ b.wire = payload ∧ RawWF b ∧ HoldsBy 128 (fun es s => Laid es (CsInfo.grammar s)) b s
  | .strategies => ∃ l, r = .strategies l ∧ Listed 128 (fun es s => Laid es (Choice.grammar s)) payload l
  | .rib => ∃ l, r = .rib l ∧ Listed 128 Rib.Means payload l

/-! ### Lemmas -/

theorem of_ok {σ : Type} {r : Out × Obj σ} {s : σ} : Parsed.of r = .ok s ↔ ∃ w, r = (.ok, ⟨w, s⟩) := by
  obtain ⟨o, w, v⟩ := r
  cases o <;> simp [Parsed.of]

theorem map_ok {α β : Type} {f : α → β} {p : Parsed α} {b : β} : p.map f = .ok b ↔ ∃ a, p = .ok a ∧ f a = b := by
  cases p <;> simp [Parsed.map]

theorem of_holds {σ : Type} {c : Codec σ} {M : List Raw → σ → Prop} (hf : ∀ s es s', c.fill (c.start s) es = (.ok, s') ↔ M es s')
    {o : Obj σ} {b : Raw} {s : σ} : Parsed.of (c.wireDecode o b) = .ok s ↔ HoldsBy c.type M b s := by
  rw [of_ok]
  constructor
  · rintro ⟨w, h⟩
    exact ((wireDecode_iff c M hf o ⟨w, s⟩ b).1 h).2
  · intro h
    exact ⟨some b, (wireDecode_iff c M hf o ⟨some b, s⟩ b).2 ⟨rfl, h⟩⟩

theorem listed_nil {σ : Type} {t : Nat} {M : List Raw → σ → Prop} {l : List σ} : Listed t M [] l ↔ l = [] := by
  constructor
  · rintro ⟨es, hes, he⟩
    have h1 : parseElements [] = some es := parseElements_iff.2 hes
    have h2 : parseElements [] = some [] := rfl
    rw [h2] at h1
    cases h1
    cases l with
    | nil => rfl
    | cons _ _ => exact he.elim
  · rintro rfl
    exact ⟨[], ⟨rfl, by simp⟩, trivial⟩

theorem listed_cons {σ : Type} {t : Nat} {M : List Raw → σ → Prop} {bs : Bytes} (hb : bs ≠ []) {l : List σ} :
    Listed t M bs l ↔ ∃ b rest s l', fromBuffer bs = some (b, rest) ∧ l = s :: l' ∧ HoldsBy t M b s ∧ Listed t M rest l' := by
  constructor
  · rintro ⟨es, ⟨rfl, hes⟩, he⟩
    cases es with
    | nil => simp at hb
    | cons e es =>
      cases l with
      | nil => exact he.elim
      | cons s l =>
        refine ⟨e, (es.map Raw.wire).flatten, s, l, ?_, rfl, he.1, es, ⟨rfl, fun x hx => hes x (List.mem_cons_of_mem _ hx)⟩, he.2⟩
        rw [fromBuffer_iff]
        exact ⟨rfl, hes e (List.mem_cons_self ..)⟩
  · rintro ⟨b, rest, s, l', hfb, rfl, hh, es, ⟨rfl, hes⟩, he⟩
    obtain ⟨rfl, hw⟩ := fromBuffer_iff.1 hfb
    refine ⟨b :: es, ⟨rfl, ?_⟩, hh, he⟩
    intro x hx
    rcases List.mem_cons.1 hx with rfl | hx
    · exact hw
    · exact hes x hx

theorem parseLoop_iff {σ : Type} {c : Codec σ} {init : σ} {M : List Raw → σ → Prop}
    (hf : ∀ s es s', c.fill (c.start s) es = (.ok, s') ↔ M es s') :
    ∀ (n : Nat) (bs : Bytes) (acc l : List σ), bs.length ≤ n →
    (parseLoop c init n bs acc = .ok l ↔ ∃ l', l = acc ++ l' ∧ Listed c.type M bs l') := by
  intro n
  induction n with
  | zero =>
    intro bs acc l hn
    have : bs = [] := List.eq_nil_of_length_eq_zero (by omega)
    subst this
    simp only [parseLoop, Parsed.ok.injEq, listed_nil]
    constructor
    · rintro rfl; exact ⟨[], by simp, rfl⟩
    · rintro ⟨l', rfl, rfl⟩; simp
  | succ n ih =>
    intro bs acc l hn
    cases bs with
    | nil =>
      simp only [parseLoop, Parsed.ok.injEq, listed_nil]
      constructor
      · rintro rfl; exact ⟨[], by simp, rfl⟩
      · rintro ⟨l', rfl, rfl⟩; simp
    | cons x xs =>
      simp only [parseLoop, listed_cons (List.cons_ne_nil x xs)]
      cases hb : fromBuffer (x :: xs) with
      | none =>
        simp only [reduceCtorEq, false_iff]
        rintro ⟨_, _, b, rest, s, l', h, _⟩
        cases h
      | some br =>
        obtain ⟨b, rest⟩ := br
        have hlen : rest.length ≤ n := by
          obtain ⟨h1, h2⟩ := fromBuffer_iff.1 hb
          have h3 := h2.length_ge
          have h4 := congrArg List.length h1
          simp only [List.length_append] at h4
          omega
        simp only
        cases hp : Parsed.of (c.wireDecode ⟨none, init⟩ b) with
        | ok s =>
          simp only
          rw [ih rest _ _ hlen]
          constructor
          · rintro ⟨l', rfl, hl⟩
            exact ⟨s :: l', by simp, b, rest, s, l', rfl, rfl, (of_holds hf).1 hp, hl⟩
          · rintro ⟨_, rfl, b', rest', s', l', h1, rfl, h2, h3⟩
            cases h1
            have := (of_holds (o := ⟨none, init⟩) hf).2 h2
            rw [hp] at this
            cases this
            exact ⟨l', by simp, h3⟩
        | tlvError =>
          simp only [reduceCtorEq, false_iff]
          rintro ⟨_, rfl, b', rest', s', l', h1, rfl, h2, h3⟩
          cases h1
          rw [(of_holds (o := ⟨none, init⟩) hf).2 h2] at hp
          cases hp
        | invalidArgument =>
          simp only [reduceCtorEq, false_iff]
          rintro ⟨_, rfl, b', rest', s', l', h1, rfl, h2, h3⟩
          cases h1
          rw [(of_holds (o := ⟨none, init⟩) hf).2 h2] at hp
          cases hp
        | ub =>
          simp only [reduceCtorEq, false_iff]
          rintro ⟨_, rfl, b', rest', s', l', h1, rfl, h2, h3⟩
          cases h1
          rw [(of_holds (o := ⟨none, init⟩) hf).2 h2] at hp
          cases hp

theorem parseVector_iff {σ : Type} {c : Codec σ} {init : σ} {M : List Raw → σ → Prop}
    (hf : ∀ s es s', c.fill (c.start s) es = (.ok, s') ↔ M es s') (payload : Bytes) (l : List σ) :
    parseVector c init payload = .ok l ↔ Listed c.type M payload l := by
  unfold parseVector
  rw [parseLoop_iff hf _ _ _ _ (Nat.le_refl _)]
  simp

theorem vec_iff {σ : Type} {c : Codec σ} {init : σ} {M : List Raw → σ → Prop} (f : List σ → Result)
    (hf : ∀ s es s', c.fill (c.start s) es = (.ok, s') ↔ M es s') (payload : Bytes) (r : Result) :
    (parseVector c init payload).map f = .ok r ↔ ∃ l, r = f l ∧ Listed c.type M payload l := by
  rw [map_ok]
  constructor
  · rintro ⟨l, h1, rfl⟩; exact ⟨l, rfl, (parseVector_iff hf _ _).1 h1⟩
  · rintro ⟨l, rfl, h⟩; exact ⟨l, (parseVector_iff hf _ _).2 h, rfl⟩

/-! ### C88 -/

/-- Parsing the payload of a dataset gives exactly what the payload says; a payload that says nothing is an exception. -/
theorem C88_parse (d : Dataset) (payload : Bytes) (r : Result) : d.parse payload = .ok r ↔ d.Says payload r := by
  cases d with
  | general =>
    simp only [Dataset.parse, Dataset.Says, map_ok, of_holds Forwarder.sound.fill]
    constructor
    · rintro ⟨s, ⟨-, es, h1, h2⟩, rfl⟩; exact ⟨s, es, rfl, h1, h2⟩
    · rintro ⟨s, es, rfl, h1, h2⟩; exact ⟨s, ⟨rfl, es, h1, h2⟩, rfl⟩
  | faces => exact vec_iff .faces FaceStatus.sound.fill payload r
  | query f => exact vec_iff .faces FaceStatus.sound.fill payload r
  | channels => exact vec_iff .channels Channel.sound.fill payload r
  | fib => exact vec_iff .fib Fib.sound.fill payload r
  | strategies => exact vec_iff .strategies Choice.sound.fill payload r
  | rib => exact vec_iff .rib Rib.sound.fill payload r
  | cs =>
    simp only [Dataset.parse, Dataset.Says, map_ok, parseCs]
    constructor
    · rintro ⟨s, h, rfl⟩
      split at h
      · cases h
      · split at h
        · cases h
        · rename_i b hb
          obtain ⟨h1, h2⟩ := fromRange_iff.1 hb
          exact ⟨s, b, rfl, h1, by rw [← h1] at h2; exact h2, (of_holds CsInfo.sound.fill).1 h⟩
    · rintro ⟨s, b, rfl, rfl, hw, hh⟩
      refine ⟨s, ?_, rfl⟩
      have h2 := Spec.TlvForm.length_ge hw
      rw [if_neg (by intro h0; rw [h0] at h2; simp at h2)]
      rw [fromRange_iff.2 ⟨rfl, hw⟩]
      exact (of_holds CsInfo.sound.fill).2 hh

/-- What a server sends for a list of items: the encodings one after the other. -/
def sendList {σ : Type} (c : Codec σ) (l : List σ) : Bytes := l.flatMap fun s => (c.encode s).wire

theorem listed_send {σ : Type} {c : Codec σ} {M : List Raw → σ → Prop} {Ok : σ → Prop} (h : Sound c M Ok id) (l : List σ)
    (hl : ∀ s ∈ l, Ok s) : Listed c.type M (sendList c l) l := by
  refine ⟨l.map c.encode, ⟨?_, ?_⟩, each_map l fun s hs => ?_⟩
  · unfold sendList
    rw [List.map_map, List.flatMap_def]; rfl
  · intro e he
    obtain ⟨s, hs, rfl⟩ := List.mem_map.1 he
    exact h.element s (hl s hs)
  · obtain ⟨es, h1, h2, h3⟩ := h.enc s (hl s hs)
    refine ⟨rfl, es, ?_, h3⟩
    show ReadsAs (c.value s) es
    rw [h1]
    exact readsAs_of h2

/-- What a server sends is what the client gets, whatever the items and however many. -/
theorem C88_roundtrip :
    (∀ l, (∀ s ∈ l, s.Ok) → Dataset.faces.parse (sendList FaceStatus.codec l) = .ok (.faces l)) ∧
    (∀ f l, (∀ s ∈ l, s.Ok) → (Dataset.query f).parse (sendList FaceStatus.codec l) = .ok (.faces l)) ∧
    (∀ l, (∀ s ∈ l, s.Ok) → Dataset.channels.parse (sendList Channel.codec l) = .ok (.channels l)) ∧
    (∀ l, (∀ s ∈ l, s.Ok) → Dataset.fib.parse (sendList Fib.codec l) = .ok (.fib l)) ∧
    (∀ l, (∀ s ∈ l, s.Ok) → Dataset.strategies.parse (sendList Choice.codec l) = .ok (.strategies l)) ∧
    (∀ l, (∀ s ∈ l, s.Ok) → Dataset.rib.parse (sendList Rib.codec l) = .ok (.rib l)) ∧
    (∀ s : CsInfo, s.Ok → Dataset.cs.parse (CsInfo.codec.encode s).wire = .ok (.cs s)) ∧
    (∀ s : Forwarder, s.Ok → Dataset.general.parse s.value = .ok (.general
      { s with start := toMs s.start * 1000000, current := toMs s.current * 1000000 })) := by
  refine ⟨fun l h => ?_, fun f l h => ?_, fun l h => ?_, fun l h => ?_, fun l h => ?_, fun l h => ?_, fun s h => ?_,
    fun s h => ?_⟩
  · exact (C88_parse _ _ _).2 ⟨l, rfl, listed_send FaceStatus.sound l h⟩
  · exact (C88_parse _ _ _).2 ⟨l, rfl, listed_send FaceStatus.sound l h⟩
  · exact (C88_parse _ _ _).2 ⟨l, rfl, listed_send Channel.sound l h⟩
  · exact (C88_parse _ _ _).2 ⟨l, rfl, listed_send Fib.sound l h⟩
  · exact (C88_parse _ _ _).2 ⟨l, rfl, listed_send Choice.sound l h⟩
  · exact (C88_parse _ _ _).2 ⟨l, rfl, listed_send Rib.sound l h⟩
  · refine (C88_parse _ _ _).2 ⟨s, CsInfo.codec.encode s, rfl, rfl, CsInfo.sound.element s h, ?_⟩
    have := CsInfo.sound.roundtrip s h ⟨none, {}⟩
    exact ((wireDecode_iff _ _ CsInfo.sound.fill _ _ _).1 this).2
  · obtain ⟨es, h1, h2, h3⟩ := Forwarder.sound.enc s h
    exact (C88_parse _ _ _).2 ⟨_, es, rfl, by rw [show s.value = _ from h1]; exact readsAs_of h2, h3⟩

/-- The claim: a payload that cannot be parsed is a `tlv::Error`, as documented. -/
def C88_error_claim : Prop := ∀ (d : Dataset) (payload : Bytes), (∃ r, d.parse payload = .ok r) ∨ d.parse payload = .tlvError

/-- It is false: an empty payload for `cs/info` is an `std::invalid_argument`, which is not a `tlv::Error`. -/
theorem C88_error_counterexample : ¬ C88_error_claim := by
  intro h
  rcases h .cs [] with ⟨r, h⟩ | h <;> cases h

theorem loop_error {σ : Type} {c : Codec σ} {init : σ} (hu : ∀ b, (c.wireDecode ⟨none, init⟩ b).1 ≠ .ub) :
    ∀ n bs acc, (∃ l, parseLoop c init n bs acc = .ok l) ∨ parseLoop c init n bs acc = .tlvError := by
  intro n
  induction n with
  | zero =>
    intro bs acc
    cases bs <;> simp [parseLoop]
  | succ n ih =>
    intro bs acc
    cases bs with
    | nil => simp [parseLoop]
    | cons x xs =>
      simp only [parseLoop]
      cases hb : fromBuffer (x :: xs) with
      | none => exact .inr rfl
      | some br =>
        obtain ⟨b, rest⟩ := br
        have h1 := hu b
        simp only
        generalize c.wireDecode ⟨none, init⟩ b = r at h1
        obtain ⟨o, w⟩ := r
        cases o with
        | ok => exact ih _ _
        | threw => exact .inr rfl
        | ub => exact absurd rfl h1

theorem steps_safe {σ : Type} (c : Codec σ) (k : List (Step σ)) (hk : c.fill = runSteps k) (h : ∀ st ∈ k, StepSafe (fun _ => True) st)
    (o : Obj σ) (b : Raw) : (c.wireDecode o b).1 ≠ .ub := by
  unfold Codec.wireDecode
  split
  · simp
  · split
    · simp
    · simp only [hk]
      exact runSteps_not_ub (fun _ => True) k h _ _ (fun _ _ => trivial)

theorem signed_not_ub (e : Raw) : signed e ≠ .ub := of_not_ub _
theorem numAs_not_ub (m : Nat) (e : Raw) : numAs m e ≠ .ub := of_not_ub _
theorem nameIn_not_ub (e : Raw) : nameIn e ≠ .ub := of_not_ub _
theorem text_not_ub (e : Raw) : text e ≠ .ub := by simp [text]

/-- One reader is never undefined. -/
macro "step_safe" : tactic => `(tactic| (intro s e _ _; first
  | exact map_not_ub (num_not_ub e) | exact map_not_ub (numAs_not_ub _ e) | exact map_not_ub (text_not_ub e)
  | exact map_not_ub (signed_not_ub e) | exact map_not_ub (nameIn_not_ub e) | exact map_not_ub (of_not_ub _)))

theorem faceStatus_safe (o : Obj FaceStatus) (b : Raw) : (FaceStatus.codec.wireDecode o b).1 ≠ .ub := by
  refine steps_safe _ FaceStatus.steps rfl ?_ o b
  intro st hst
  simp only [FaceStatus.steps, List.mem_cons, List.not_mem_nil, or_false] at hst
  rcases hst with rfl | rfl | rfl | rfl | rfl | rfl | rfl | rfl | rfl | rfl | rfl | rfl | rfl | rfl | rfl | rfl | rfl | rfl | rfl <;>
    step_safe

theorem channel_safe (o : Obj Channel) (b : Raw) : (Channel.codec.wireDecode o b).1 ≠ .ub := by
  refine steps_safe _ Channel.steps rfl ?_ o b
  intro st hst
  simp only [Channel.steps, List.mem_cons, List.not_mem_nil, or_false] at hst
  rcases hst with rfl
  step_safe

theorem nextHop_safe (o : Obj NextHop) (b : Raw) : (NextHop.codec.wireDecode o b).1 ≠ .ub := by
  refine steps_safe _ NextHop.steps rfl ?_ o b
  intro st hst
  simp only [NextHop.steps, List.mem_cons, List.not_mem_nil, or_false] at hst
  rcases hst with rfl | rfl <;> step_safe

theorem route_safe (o : Obj Route) (b : Raw) : (Route.codec.wireDecode o b).1 ≠ .ub := by
  refine steps_safe _ Route.steps rfl ?_ o b
  intro st hst
  simp only [Route.steps, List.mem_cons, List.not_mem_nil, or_false] at hst
  rcases hst with rfl | rfl | rfl | rfl | rfl <;> step_safe

theorem choice_safe (o : Obj Choice) (b : Raw) : (Choice.codec.wireDecode o b).1 ≠ .ub := by
  refine steps_safe _ Choice.steps rfl ?_ o b
  intro st hst
  simp only [Choice.steps, List.mem_cons, List.not_mem_nil, or_false] at hst
  rcases hst with rfl | rfl <;> step_safe

theorem hops_safe : ∀ (es : List Raw) (s : Fib), (Fib.fillHops es s).1 ≠ .ub := by
  intro es
  induction es with
  | nil => intro s; simp [Fib.fillHops]
  | cons e es ih =>
    intro s
    have h1 := nextHop_safe ⟨none, {}⟩ e
    simp only [Fib.fillHops]
    split
    · exact ih _
    · rename_i r o hne heq
      rw [heq] at h1
      exact h1

theorem routes_safe : ∀ (es : List Raw) (s : Rib), (Rib.fillRoutes es s).1 ≠ .ub := by
  intro es
  induction es with
  | nil => intro s; simp [Rib.fillRoutes]
  | cons e es ih =>
    intro s
    have h1 := route_safe ⟨none, {}⟩ e
    simp only [Rib.fillRoutes]
    split
    · exact ih _
    · rename_i r o hne heq
      rw [heq] at h1
      exact h1

theorem fib_safe (o : Obj Fib) (b : Raw) : (Fib.codec.wireDecode o b).1 ≠ .ub := by
  unfold Codec.wireDecode
  split
  · simp
  · split
    · simp
    · simp only [Fib.codec, Fib.fill]
      split
      · simp
      · split
        · simp
        · exact hops_safe _ _

theorem rib_safe (o : Obj Rib) (b : Raw) : (Rib.codec.wireDecode o b).1 ≠ .ub := by
  unfold Codec.wireDecode
  split
  · simp
  · split
    · simp
    · simp only [Rib.codec, Rib.fill]
      split
      · simp
      · split
        · simp
        · exact routes_safe _ _

theorem csFlags_not_ub (e : Raw) : csFlags e ≠ .ub := map_not_ub (num_not_ub e)

theorem cs_safe (o : Obj CsInfo) (b : Raw) : (CsInfo.codec.wireDecode o b).1 ≠ .ub := by
  refine steps_safe _ CsInfo.steps rfl ?_ o b
  intro st hst
  simp only [CsInfo.steps, List.mem_cons, List.not_mem_nil, or_false] at hst
  rcases hst with rfl | rfl | rfl | rfl | rfl <;> first | step_safe | (intro s e _ _; exact map_not_ub (csFlags_not_ub e))

theorem map_error {α β : Type} {f : α → β} {p : Parsed α} (h : (∃ a, p = .ok a) ∨ p = .tlvError) :
    (∃ b, p.map f = .ok b) ∨ p.map f = .tlvError := by
  rcases h with ⟨a, rfl⟩ | rfl
  · exact .inl ⟨f a, rfl⟩
  · exact .inr rfl

theorem of_error {σ : Type} {r : Out × Obj σ} (h : r.1 ≠ .ub) : (∃ s, Parsed.of r = .ok s) ∨ Parsed.of r = .tlvError := by
  obtain ⟨o, w⟩ := r
  cases o with
  | ok => exact .inl ⟨_, rfl⟩
  | threw => exact .inr rfl
  | ub => exact absurd rfl h

/-- It holds of every dataset except `cs/info` with an empty payload and `status/general` with times out of range. -/
theorem C88_error_partial (d : Dataset) (payload : Bytes) (h1 : d = .cs → payload ≠ [])
    (h2 : d = .general → TimesFit (binaryBlock 21 payload)) :
    (∃ r, d.parse payload = .ok r) ∨ d.parse payload = .tlvError := by
  cases d with
  | general => exact map_error (of_error (C86_forwarder_decode_partial _ _ (h2 rfl)))
  | faces => exact map_error (loop_error (fun b => faceStatus_safe _ b) _ _ _)
  | query f => exact map_error (loop_error (fun b => faceStatus_safe _ b) _ _ _)
  | channels => exact map_error (loop_error (fun b => channel_safe _ b) _ _ _)
  | fib => exact map_error (loop_error (fun b => fib_safe _ b) _ _ _)
  | strategies => exact map_error (loop_error (fun b => choice_safe _ b) _ _ _)
  | rib => exact map_error (loop_error (fun b => rib_safe _ b) _ _ _)
  | cs =>
    refine map_error ?_
    unfold parseCs
    rw [if_neg (h1 rfl)]
    split
    · exact .inr rfl
    · exact of_error (cs_safe _ _)

/-- A face query carries its filter: the component after the dataset name holds an element that decodes to the filter. -/
theorem C88_query (f : Filter) (pfx : List Comp) (h : f.Ok) :
    ∃ c, (Dataset.query f).name pfx = pfx ++ [word "faces", word "query", c] ∧ c.type = 8 ∧
      ∃ b, blockFromValue c.value = some b ∧ ∀ o, ∃ w, Filter.codec.wireDecode o b = (.ok, ⟨w, f⟩) := by
  refine ⟨⟨8, (Filter.codec.encode f).wire⟩, by simp [Dataset.name, Dataset.words], rfl, Filter.codec.encode f, ?_, fun o => ⟨_, Filter.sound.roundtrip f h o⟩⟩
  have h2 := Spec.TlvForm.length_ge (Filter.sound.element f h)
  unfold blockFromValue
  rw [if_neg (by simp only; omega)]
  exact fromRange_iff.2 ⟨rfl, Filter.sound.element f h⟩

/-- The names of two datasets differ, whatever the prefixes, unless they are the same dataset. -/
theorem C88_names (d d' : Dataset) (pfx : List Comp) (h : d.name pfx = d'.name pfx) :
    (∀ f, d ≠ .query f) → (∀ f, d' ≠ .query f) → d = d' := by
  intro h1 h2
  unfold Dataset.name at h
  cases d with
  | query f => exact absurd rfl (h1 f)
  | _ =>
    cases d' with
    | query f => exact absurd rfl (h2 f)
    | _ => first | rfl | (simp only [List.append_nil, List.append_cancel_left_eq] at h; exact absurd h (by decide))

example : Dataset.faces.parse (sendList FaceStatus.codec [sampleFace, sampleFace]) = .ok (.faces [sampleFace, sampleFace]) :=
  C88_roundtrip.1 _ (by intro s hs; simp only [List.mem_cons, List.not_mem_nil, or_false, or_self] at hs; exact hs ▸ sampleFace_ok)
example : Dataset.cs.parse (CsInfo.codec.encode sampleCs).wire = .ok (.cs sampleCs) :=
  C88_roundtrip.2.2.2.2.2.2.1 _ sampleCs_ok
example : ∃ b, blockFromValue (Filter.codec.encode sampleFilter).wire = some b := ⟨_, rfl⟩

end Ndn.Nfd
