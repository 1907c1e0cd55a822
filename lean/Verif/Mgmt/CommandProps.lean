import Verif.Mgmt.CommandSpec
import Verif.Mgmt.ParamsProps
import Verif.Packet.Props
/-
C63: what control commands accept, and their defaults.
-/
namespace Ndn.Mgmt
open Tlv Tlv.Spec Block Block.Spec Name Packet Packet.Spec

theorem all_complete (f : Field) : f ∈ Field.all := by cases f <;> decide

/-- Any format accepts exactly the parameter sets in which every required field is present, every present field is
required or optional, and Flags and Mask come together where both are optional. -/
theorem C63_format (fmt : Format) (p : Params) :
    fmt.validate p = .accept ↔
      (∀ f ∈ fmt.required, p.present f = true) ∧
      (∀ f, p.present f = true → f ∈ fmt.required ∨ f ∈ fmt.optional) ∧
      (.flags ∈ fmt.optional → .mask ∈ fmt.optional → p.present .flags = p.present .mask) := by
  have hall : Field.all.all (fmt.fieldOk p) = true ↔
      (∀ f ∈ fmt.required, p.present f = true) ∧ (∀ f, p.present f = true → f ∈ fmt.required ∨ f ∈ fmt.optional) := by
    rw [List.all_eq_true]
    constructor
    · intro h
      refine ⟨?_, ?_⟩
      · intro f hf
        have := h f (all_complete f)
        simpa [Format.fieldOk, hf] using this
      · intro f hp
        have := h f (all_complete f)
        by_cases hf : f ∈ fmt.required
        · exact Or.inl hf
        · simp only [Format.fieldOk, if_neg hf, hp] at this
          exact Or.inr (by simpa using this)
    · rintro ⟨h1, h2⟩ f _
      unfold Format.fieldOk
      by_cases hf : f ∈ fmt.required
      · rw [if_pos hf]; exact h1 f hf
      · rw [if_neg hf]
        cases hp : p.present f with
        | false => rfl
        | true => simpa using (h2 f hp).resolve_left hf
  unfold Format.validate
  by_cases ha : Field.all.all (fmt.fieldOk p) = true
  · rw [if_pos ha]
    have hb := hall.1 ha
    by_cases hm : Field.flags ∈ fmt.optional ∧ Field.mask ∈ fmt.optional
    · rw [if_pos hm]
      cases hf : p.present .flags <;> cases hk : p.present .mask <;> simp [hb.1, hm]
      all_goals exact hb
    · rw [if_neg hm]
      simp only [true_iff]
      exact ⟨hb.1, hb.2, fun h1 h2 => absurd ⟨h1, h2⟩ hm⟩
  · rw [if_neg ha]
    constructor
    · intro h; cases h
    · rintro ⟨h1, h2, _⟩; exact absurd (hall.2 ⟨h1, h2⟩) ha

theorem format_verdict (fmt : Format) (p : Params) : fmt.validate p = .accept ∨ fmt.validate p = .reject := by
  unfold Format.validate
  (repeat' split) <;> simp

/-- The rule a format expresses. -/
def Format.rule (fmt : Format) (f : Field) : Rule :=
  if f ∈ fmt.required then .required else if f ∈ fmt.optional then .optional else .forbidden

theorem request_rule (c : Command) (f : Field) : c.requestFormat.rule f = requestRule c f := by
  cases c <;> cases f <;> decide

theorem response_rule (c : Command) (f : Field) : c.responseFormat.rule f = responseRule c f := by
  cases c <;> cases f <;> decide

theorem format_obeys (fmt : Format) (p : Params) :
    ((∀ f ∈ fmt.required, p.present f = true) ∧ (∀ f, p.present f = true → f ∈ fmt.required ∨ f ∈ fmt.optional)) ↔
      ∀ f, Obeys (fmt.rule f) (p.present f) := by
  unfold Obeys Format.rule
  constructor
  · rintro ⟨h1, h2⟩ f
    have a1 := h1 f
    have a2 := h2 f
    by_cases hr : f ∈ fmt.required
    · simp [hr, a1 hr]
    · by_cases ho : f ∈ fmt.optional
      · simp [hr, ho]
      · simp only [hr, ho, if_false, or_false] at a2 ⊢
        simpa using a2
  · intro h
    refine ⟨fun f hf => ?_, fun f hp => ?_⟩
    · have := h f
      simp only [if_pos hf] at this
      exact this.1 trivial
    · have := h f
      by_cases hr : f ∈ fmt.required
      · exact Or.inl hr
      · by_cases ho : f ∈ fmt.optional
        · exact Or.inr ho
        · simp only [hr, ho, if_false] at this
          rw [this.2 trivial] at hp; cases hp

theorem present_faceId (p : Params) : p.present .faceId = p.faceId.isSome := rfl

/-- A request is accepted exactly when it has the fields the protocol requires, no field it does not allow, and meets the
further conditions. -/
theorem C63_request (c : Command) (p : Params) :
    c.validateRequest p = .accept ↔ (∀ f, Obeys (requestRule c f) (p.present f)) ∧ requestExtra c p := by
  have hv := C63_format c.requestFormat p
  rw [← and_assoc, format_obeys] at hv
  simp only [request_rule] at hv
  unfold Command.validateRequest
  by_cases ho : ∀ f, Obeys (requestRule c f) (p.present f)
  · have hr : ∀ f, requestRule c f = .required → p.present f = true := fun f h => (ho f).1 h
    cases c
    case faceCreate =>
      by_cases hf : p.present .flags = p.present .mask
      · rw [hv.2 ⟨ho, fun _ _ => hf⟩]
        simp only [Command.checkRequest, true_iff]
        refine ⟨ho, ?_⟩
        simp only [Params.present] at hf
        simp [requestExtra, hf]
      · have h1 : Command.faceCreate.requestFormat.validate p = .reject := by
          rcases format_verdict Command.faceCreate.requestFormat p with h | h
          · exact absurd ((hv.1 h).2 (by decide) (by decide)) hf
          · exact h
        rw [h1]
        simp only [Params.present] at hf
        constructor
        · intro h; cases h
        · rintro ⟨_, h⟩
          simp only [requestExtra] at h
          exact absurd (Bool.eq_iff_iff.2 h) hf
    case faceUpdate =>
      by_cases hf : p.present .flags = p.present .mask
      · rw [hv.2 ⟨ho, fun _ _ => hf⟩]
        simp only [Command.checkRequest, true_iff]
        refine ⟨ho, ?_⟩
        simp only [Params.present] at hf
        simp [requestExtra, hf]
      · have h1 : Command.faceUpdate.requestFormat.validate p = .reject := by
          rcases format_verdict Command.faceUpdate.requestFormat p with h | h
          · exact absurd ((hv.1 h).2 (by decide) (by decide)) hf
          · exact h
        rw [h1]
        simp only [Params.present] at hf
        constructor
        · intro h; cases h
        · rintro ⟨_, h⟩
          simp only [requestExtra] at h
          exact absurd (Bool.eq_iff_iff.2 h) hf
    case csConfig =>
      by_cases hf : p.present .flags = p.present .mask
      · rw [hv.2 ⟨ho, fun _ _ => hf⟩]
        simp only [Command.checkRequest, true_iff]
        refine ⟨ho, ?_⟩
        simp only [Params.present] at hf
        simp [requestExtra, hf]
      · have h1 : Command.csConfig.requestFormat.validate p = .reject := by
          rcases format_verdict Command.csConfig.requestFormat p with h | h
          · exact absurd ((hv.1 h).2 (by decide) (by decide)) hf
          · exact h
        rw [h1]
        simp only [Params.present] at hf
        constructor
        · intro h; cases h
        · rintro ⟨_, h⟩
          simp only [requestExtra] at h
          exact absurd (Bool.eq_iff_iff.2 h) hf
    case faceDestroy =>
      rw [hv.2 ⟨ho, fun h => absurd h (by decide)⟩]
      have := hr .faceId rfl
      simp only [Params.present] at this
      obtain ⟨x, hx⟩ := Option.isSome_iff_exists.1 this
      simp only [Command.checkRequest, needFaceId, hx, requestExtra]
      by_cases h0 : x = 0 <;> simp [h0]
      exact ho
    case csErase =>
      rw [hv.2 ⟨ho, fun h => absurd h (by decide)⟩]
      simp only [Command.checkRequest, requestExtra]
      by_cases h0 : p.count = some 0 <;> simp [h0]
      exact ho
    case strategyChoiceUnset =>
      rw [hv.2 ⟨ho, fun h => absurd h (by decide)⟩]
      have := hr .name rfl
      simp only [Params.present] at this
      obtain ⟨x, hx⟩ := Option.isSome_iff_exists.1 this
      simp only [Command.checkRequest, needNonEmptyName, hx, requestExtra]
      by_cases h0 : x = [] <;> simp [h0]
      exact ho
    all_goals
      rw [hv.2 ⟨ho, fun h1 h2 => absurd (And.intro h1 h2) (by decide)⟩]
      simp only [Command.checkRequest, requestExtra, and_true, true_iff]
      exact ho
  · constructor
    · intro h
      cases hw : c.requestFormat.validate p with
      | accept => exact absurd (hv.1 hw).1 ho
      | reject => rw [hw] at h; cases h
      | ub => rw [hw] at h; cases h
    · rintro ⟨h, _⟩; exact absurd h ho

theorem no_response_pairs (c : Command) : ¬ (.flags ∈ c.responseFormat.optional ∧ .mask ∈ c.responseFormat.optional) := by
  cases c <;> decide

/-- A response is accepted exactly when it has the fields the protocol requires, no field it does not allow, and meets
the further conditions. -/
theorem C63_response (c : Command) (p : Params) :
    c.validateResponse p = .accept ↔ (∀ f, Obeys (responseRule c f) (p.present f)) ∧ responseExtra c p := by
  have hv := C63_format c.responseFormat p
  rw [← and_assoc, format_obeys] at hv
  simp only [response_rule] at hv
  unfold Command.validateResponse
  by_cases ho : ∀ f, Obeys (responseRule c f) (p.present f)
  · have hr : ∀ f, responseRule c f = .required → p.present f = true := fun f h => (ho f).1 h
    rw [hv.2 ⟨ho, fun h1 h2 => absurd (And.intro h1 h2) (no_response_pairs c)⟩]
    cases c
    case csConfig => simp only [Command.checkResponse, responseExtra, and_true, true_iff]; exact ho
    case strategyChoiceSet => simp only [Command.checkResponse, responseExtra, and_true, true_iff]; exact ho
    case csErase =>
      simp only [Command.checkResponse, responseExtra]
      by_cases h0 : p.capacity = some 0 <;> simp [h0]
      exact ho
    case strategyChoiceUnset =>
      have := hr .name rfl
      simp only [Params.present] at this
      obtain ⟨x, hx⟩ := Option.isSome_iff_exists.1 this
      simp only [Command.checkResponse, needNonEmptyName, hx, responseExtra]
      by_cases h0 : x = [] <;> simp [h0]
      exact ho
    all_goals
      have := hr .faceId rfl
      simp only [Params.present] at this
      obtain ⟨x, hx⟩ := Option.isSome_iff_exists.1 this
      simp only [Command.checkResponse, needFaceId, hx, responseExtra]
      by_cases h0 : x = 0 <;> simp [h0]
      exact ho
  · constructor
    · intro h
      cases hw : c.responseFormat.validate p with
      | accept => exact absurd (hv.1 hw).1 ho
      | reject => rw [hw] at h; cases h
      | ub => rw [hw] at h; cases h
    · rintro ⟨h, _⟩; exact absurd h ho

/-- No parameter set makes validation read a field that is not there. -/
theorem C63_no_ub (c : Command) (p : Params) : c.validateRequest p ≠ .ub ∧ c.validateResponse p ≠ .ub := by
  have hq := (C63_format c.requestFormat p).1
  have hs := (C63_format c.responseFormat p).1
  constructor
  · unfold Command.validateRequest
    rcases format_verdict c.requestFormat p with h | h
    · rw [h]
      have h1 := (hq h).1
      cases c <;> simp only [Command.checkRequest] <;> try exact (by decide)
      · have := h1 .faceId (by decide)
        simp only [Params.present] at this
        obtain ⟨x, hx⟩ := Option.isSome_iff_exists.1 this
        simp only [needFaceId, hx]; split <;> simp
      · split <;> simp
      · have := h1 .name (by decide)
        simp only [Params.present] at this
        obtain ⟨x, hx⟩ := Option.isSome_iff_exists.1 this
        simp only [needNonEmptyName, hx]; split <;> simp
    · rw [h]; simp
  · unfold Command.validateResponse
    rcases format_verdict c.responseFormat p with h | h
    · rw [h]
      have h1 := (hs h).1
      cases c <;> simp only [Command.checkResponse] <;> try exact (by decide)
      case csErase => split <;> simp
      case strategyChoiceUnset =>
        have := h1 .name (by decide)
        simp only [Params.present] at this
        obtain ⟨x, hx⟩ := Option.isSome_iff_exists.1 this
        simp only [needNonEmptyName, hx]; split <;> simp
      all_goals
        have := h1 .faceId (by decide)
        simp only [Params.present] at this
        obtain ⟨x, hx⟩ := Option.isSome_iff_exists.1 this
        simp only [needFaceId, hx]; split <;> simp
    · rw [h]; simp

/-- Defaults: each field given stays as it is, each field with a default that was not given gets it, and no other field
appears. -/
theorem C63_defaults (c : Command) (p : Params) (f : Field) :
    (c.applyDefaults p).get f = (p.get f).or (defaultOf c f) := by
  have aux : ∀ (o : Option Nat) (n : Nat), (orSet o n).map Val.num = (o.map Val.num).or (some (.num n)) := by
    intro o n; cases o <;> rfl
  cases c <;> cases f <;> simp only [Command.applyDefaults, Params.get, defaultOf, Option.or_none, aux]

/-- A valid request stays valid when the defaults are filled in. -/
theorem C63_defaults_valid (c : Command) (p : Params) (h : c.validateRequest p = .accept) :
    c.validateRequest (c.applyDefaults p) = .accept := by
  rw [C63_request] at h ⊢
  obtain ⟨h1, h2⟩ := h
  refine ⟨?_, ?_⟩
  · intro f
    have hf := h1 f
    have hd : (c.applyDefaults p).present f = (p.present f || (defaultOf c f).isSome) := by
      rw [C62_present, C62_present, C63_defaults]
      cases p.get f <;> simp
    rw [hd]
    have ht : defaultOf c f = none ∨ requestRule c f = .optional := by cases c <;> cases f <;> simp [defaultOf, requestRule]
    rcases ht with ht | ht
    · rw [ht]; simpa using hf
    · rw [ht]; exact ⟨(fun h => by cases h), (fun h => by cases h)⟩
  · cases c <;> exact h2

/-- A command Interest carries its parameters: its name is the prefix, the command's module and verb and one component,
and parsing it gives the parameters back. -/
theorem C63_request_roundtrip (c : Command) (pfx : List Comp) (p : Params) (ok : Ok p) (n : List Comp)
    (h : c.createRequest pfx p = some n) :
    parseRequest n pfx.length = some p ∧ (pfx ++ [c.module, c.verb]) <+: n ∧ n.length = pfx.length + 3 := by
  unfold Command.createRequest at h
  split at h
  · cases h
    refine ⟨?_, ?_, by simp⟩
    · unfold parseRequest
      have hi : (pfx ++ [c.module, c.verb] ++ [(⟨8, p.encode.wire⟩ : Comp)])[pfx.length + 2]? = some ⟨8, p.encode.wire⟩ := by
        rw [List.getElem?_append_right (by simp)]
        simp
      rw [hi]
      simp only
      have hb : blockFromValue p.encode.wire = some p.encode := blockFromValue_iff.2 ⟨rfl, (C62_encode_element p ok).1⟩
      rw [hb, Option.bind_some]
      exact C62_roundtrip p ok
    · exact List.prefix_append _ _
  · cases h

/-- A request is made exactly for valid parameters. -/
theorem C63_create (c : Command) (pfx : List Comp) (p : Params) :
    (c.createRequest pfx p).isSome ↔ c.validateRequest p = .accept := by
  unfold Command.createRequest
  cases c.validateRequest p <;> simp

/-- No two commands have the same name. -/
theorem C63_names (c d : Command) (h1 : c.module = d.module) (h2 : c.verb = d.verb) : c = d := by
  have key : ∀ c d : Command, c ≠ d → c.module.value ≠ d.module.value ∨ c.verb.value ≠ d.verb.value := by
    intro c d
    cases c <;> cases d <;> decide +kernel
  by_cases hcd : c = d
  · exact hcd
  · exfalso
    rcases key c d hcd with h | h
    · exact h (congrArg Comp.value h1)
    · exact h (congrArg Comp.value h2)

/-! Examples. -/

def exReg : Params := { name := some [⟨8, [97]⟩], cost := some 10 }

example : Command.ribRegister.validateRequest exReg = .accept ∧
    Command.ribRegister.applyDefaults exReg =
      { name := some [⟨8, [97]⟩], cost := some 10, faceId := some 0, origin := some 0, flags := some 1 } := by decide

example : Command.ribRegister.validateRequest { cost := some 1 } = .reject := by decide
example : Command.faceCreate.validateRequest { uri := some [1], flags := some 1 } = .reject := by decide
example : Command.faceCreate.validateRequest { uri := some [1], flags := some 1, mask := some 1 } = .accept := by decide
example : Command.faceDestroy.validateRequest { faceId := some 0 } = .reject := by decide
example : Command.ribRegister.validateResponse { exReg with faceId := some 3, origin := some 0, flags := some 1 } = .accept := by
  decide
example : (Command.ribRegister.createRequest [⟨8, [108]⟩] exReg).isSome := by decide

end Ndn.Mgmt
