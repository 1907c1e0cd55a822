import Verif.Dummy.Reg
import Verif.Mgmt.CommandProps
import Verif.Nfd.ControllerProps
/-
C148: what a program that registers prefixes sees on a dummy face.
-/
namespace Ndn.Dummy
open Tlv Block Name Packet Packet.Spec Mgmt

/-- The parameters of the answer: those of the request, with the ID of the face, the origin "app" and, for `rib/register`, the cost
zero in place of those not given. -/
def Answered (faceId : Nat) (c : Command) (p q : Params) : Prop :=
  q = { p with faceId := some (p.faceId.getD faceId), origin := some (p.origin.getD 0),
               cost := if c = .ribRegister then some (p.cost.getD 0) else p.cost }

private theorem fill_eq (faceId : Nat) (c : Command) (p : Params) :
    Answered faceId c p (fillReply faceId (decide (c = .ribRegister)) p) := by
  unfold Answered fillReply
  cases h1 : p.faceId <;> cases h2 : p.origin <;> cases h3 : p.cost <;> by_cases hc : c = .ribRegister <;>
    simp [hc] <;> cases p <;> simp_all

private theorem optElem_le {o : Option Nat} {t : Nat} : (optElem o (nniTlv t)).length ≤ 26 := by
  cases o with
  | none => simp [optElem]
  | some d => exact Nfd.nniTlv_le t d

private theorem answered_ok {faceId : Nat} {c : Command} {p q : Params} (h : Answered faceId c p q) (ok : Ok p) (hf : faceId < 2 ^ 64)
    (hs : p.value.length + 200 < 2 ^ 64) : Ok q ∧ q.value.length ≤ p.value.length + 78 := by
  subst h
  have hsz : ∀ (f o k : Option Nat), (Params.value { p with faceId := f, origin := o, cost := k }).length ≤ p.value.length + 78 := by
    intro f o k
    unfold Params.value
    simp only [List.length_append]
    have h1 : (optElem f (nniTlv 105)).length ≤ 26 := optElem_le
    have h2 : (optElem o (nniTlv 111)).length ≤ 26 := optElem_le
    have h3 : (optElem k (nniTlv 106)).length ≤ 26 := optElem_le
    omega
  refine ⟨⟨ok.name, ?_, ?_, ?_, ok.capacity, ok.count, ok.flags, ok.mask, ok.strategy, ok.expirationPeriod, ok.facePersistency,
    ok.baseCongestionMarkingInterval, ok.defaultCongestionThreshold, ok.mtu, Nat.lt_of_le_of_lt (hsz _ _ _) (by omega)⟩, hsz _ _ _⟩
  · intro x hx
    dsimp only at hx
    cases hp : p.faceId with
    | none => rw [hp] at hx; cases hx; exact hf
    | some y => rw [hp] at hx; cases hx; exact ok.faceId _ hp
  · intro x hx
    dsimp only at hx
    cases hp : p.origin with
    | none => rw [hp] at hx; cases hx; exact Nat.zero_le _
    | some y => rw [hp] at hx; cases hx; exact ok.origin _ hp
  · intro x hx
    dsimp only at hx
    split at hx
    · cases hp : p.cost with
      | none => rw [hp] at hx; cases hx; decide
      | some y => rw [hp] at hx; cases hx; exact ok.cost _ hp
    · exact ok.cost _ hx

/-- The response carries what is put into it. -/
private theorem response_ok {q : Params} (ok : Ok q) (hs : q.value.length + 100 < 2 ^ 64) : Nfd.Response.Ok ⟨200, [], some q.encode⟩ := by
  refine ⟨show 200 < 2 ^ 32 by decide, ?_, ?_⟩
  · intro b hb; cases hb; exact (C62_encode_element q ok).1
  · unfold Nfd.Response.value
    simp only [List.length_append]
    have h1 := Nfd.nniTlv_le 102 200
    have h2 : (tlvBytes 103 []).length = 2 := by decide
    have h3 : (optElem (some q.encode) Raw.wire).length ≤ q.value.length + 18 := by
      show (tlvBytes 104 q.value).length ≤ _
      rw [tlvBytes_length]
      have := Nfd.writeVar_le 104
      have := Nfd.writeVar_le q.value.length
      omega
    show _ < 2 ^ 64
    omega

/-- The two commands that are answered. -/
def IsRib (c : Command) : Prop := c = .ribRegister ∨ c = .ribUnregister

private theorem verb_register (c : Command) : c.verb = ⟨8, strBytes "register"⟩ ↔ c = .ribRegister := by
  cases c <;> decide

/-- A `rib/register` or `rib/unregister` command, whatever signing appends to its name, is answered with code 200 and the parameters of the
request, filled up. -/
theorem C148_answer (faceId : Nat) (hf : faceId < 2 ^ 64) (c : Command) (hc : IsRib c) (p : Params) (ok : Ok p)
    (hs : p.value.length + 200 < 2 ^ 64) (n suffix : List Comp) (hn : c.createRequest localhostNfd p = some n) :
    ∃ q r, Answered faceId c p q ∧ registrationReply faceId (n ++ suffix) = .answer r ∧ r = ⟨200, [], some q.encode⟩ ∧
      Nfd.HoldsResponse (Nfd.Response.codec.encode r).wire r ∧ Ok q := by
  refine ⟨_, _, fill_eq faceId c p, ?_, rfl, ?_, ?_⟩
  · have hacc : c.validateRequest p = .accept := (C63_create c _ p).mp (by rw [hn]; rfl)
    unfold Command.createRequest at hn
    rw [hacc] at hn
    cases hn
    have hmod : c.module = ⟨8, strBytes "rib"⟩ := by rcases hc with rfl | rfl <;> decide
    have hb : blockFromValue p.encode.wire = some p.encode := blockFromValue_iff.2 ⟨rfl, (C62_encode_element p ok).1⟩
    unfold registrationReply
    rw [if_neg (by
      rw [hmod]
      simp [localhostNfd, localhostRib])]
    simp only [localhostNfd, List.cons_append, List.nil_append, List.getElem?_cons_succ, List.getElem?_cons_zero, Option.bind_some, hb,
      C62_roundtrip p ok]
    simp only [Option.some.injEq, verb_register]
    split
    · rename_i he; rw [he]
    · rfl
  · have h1 := answered_ok (fill_eq faceId c p) ok hf hs
    exact (Nfd.C91_understood c _ (response_ok h1.1 (by omega))).1
  · exact (answered_ok (fill_eq faceId c p) ok hf hs).1

/-- The Controller reports success with these parameters, exactly if the face ID in them is not zero and, for `rib/register`, the request had
flags. -/
theorem C148_success_partial (faceId : Nat) (hf : faceId < 2 ^ 64) (c : Command) (hc : IsRib c) (p : Params) (ok : Ok p)
    (hs : p.value.length + 200 < 2 ^ 64) (n suffix : List Comp) (hn : c.createRequest localhostNfd p = some n) :
    ∃ q r, Answered faceId c p q ∧ registrationReply faceId (n ++ suffix) = .answer r ∧
      ∀ q', Nfd.Reports c (Nfd.Response.codec.encode r).wire q' ↔
        q' = q ∧ p.faceId.getD faceId ≠ 0 ∧ (c = .ribRegister → p.flags.isSome) := by
  obtain ⟨q, r, h1, h2, h3, h4, h5⟩ := C148_answer faceId hf c hc p ok hs n suffix hn
  refine ⟨q, r, h1, h2, fun q' => ?_⟩
  have hacc : c.validateRequest p = .accept := (C63_create c _ p).mp (by rw [hn]; rfl)
  have hreq := ((C63_request c p).1 hacc).1
  have hval : c.validateResponse q = .accept ↔ p.faceId.getD faceId ≠ 0 ∧ (c = .ribRegister → p.flags.isSome) := by
    rw [C63_response]
    unfold Answered at h1
    subst h1
    rcases hc with rfl | rfl
    · constructor
      · rintro ⟨g1, g2⟩
        exact ⟨fun e => g2 (by simp [e]), fun _ => (g1 .flags).1 rfl⟩
      · rintro ⟨g1, g2⟩
        have g2 := g2 rfl
        refine ⟨fun f => ?_, fun e => g1 (by simpa using e)⟩
        have := hreq f
        cases f <;> simp_all [Obeys, responseRule, requestRule, Params.present]
    · constructor
      · rintro ⟨g1, g2⟩
        exact ⟨fun e => g2 (by simp [e]), fun e => by cases e⟩
      · rintro ⟨g1, g2⟩
        refine ⟨fun f => ?_, fun e => g1 (by simpa using e)⟩
        have := hreq f
        cases f <;> simp_all [Obeys, responseRule, requestRule, Params.present]
  rw [← hval]
  constructor
  · rintro ⟨r', b, g1, g2, g3, g4, g5⟩
    cases Nfd.holdsResponse_unique g1 h4
    rw [h3] at g3
    cases g3
    rw [C62_roundtrip q h5] at g4
    cases g4
    exact ⟨rfl, g5⟩
  · rintro ⟨rfl, g⟩
    exact ⟨r, q'.encode, h4, by rw [h3]; show 200 < 400; decide, by rw [h3], C62_roundtrip q' h5, g⟩

/-- What `Face` does: `registerPrefix` with any prefix and flags and `unregisterPrefix` are reported as successful, unless the face was
made with the face ID zero. -/
theorem C148_face (faceId : Nat) (h0 : faceId ≠ 0) (hf : faceId < 2 ^ 64) (pfx : List Comp) (hw : NameWF pfx) (flags : Nat) (hfl : flags < 2 ^ 64)
    (hs : (encodeComps pfx).length + 300 < 2 ^ 64) (suffix : List Comp) :
    (∃ n r, Command.createRequest .ribRegister localhostNfd { name := some pfx, flags := some flags } = some n ∧
      registrationReply faceId (n ++ suffix) = .answer r ∧
      Nfd.Reports .ribRegister (Nfd.Response.codec.encode r).wire
        { name := some pfx, flags := some flags, faceId := some faceId, origin := some 0, cost := some 0 }) ∧
    (∃ n r, Command.createRequest .ribUnregister localhostNfd { name := some pfx } = some n ∧
      registrationReply faceId (n ++ suffix) = .answer r ∧
      Nfd.Reports .ribUnregister (Nfd.Response.codec.encode r).wire { name := some pfx, faceId := some faceId, origin := some 0 }) := by
  have hsz : ∀ fl, (Params.value { name := some pfx, flags := fl }).length ≤ (encodeComps pfx).length + 26 := by
    intro fl
    have : (optElem fl (nniTlv 108)).length ≤ 26 := optElem_le
    simp [Params.value, optElem] at this ⊢
    exact this
  have hok : ∀ fl, (∀ x, fl = some x → x < 2 ^ 64) → Ok { name := some pfx, flags := fl } := by
    intro fl h
    refine ⟨?_, ?_, ?_, ?_, ?_, ?_, h, ?_, ?_, ?_, ?_, ?_, ?_, ?_, Nat.lt_of_le_of_lt (hsz fl) (by omega)⟩ <;> intro x hx <;> cases hx
    exact hw
  have hv1 : Command.validateRequest .ribRegister { name := some pfx, flags := some flags } = .accept := by
    rw [C63_request]
    exact ⟨fun f => by cases f <;> simp [Obeys, requestRule, Params.present], trivial⟩
  have hv2 : Command.validateRequest .ribUnregister { name := some pfx } = .accept := by
    rw [C63_request]
    exact ⟨fun f => by cases f <;> simp [Obeys, requestRule, Params.present], trivial⟩
  constructor
  · obtain ⟨n, hn⟩ := Option.isSome_iff_exists.1 ((C63_create .ribRegister localhostNfd _).2 hv1)
    obtain ⟨q, r, h1, h2, h3⟩ := C148_success_partial faceId hf .ribRegister (.inl rfl) _ (hok (some flags) (fun x hx => by cases hx; exact hfl))
      (by have := hsz (some flags); omega) n suffix hn
    refine ⟨n, r, hn, h2, (h3 _).2 ⟨h1.symm, h0, fun _ => rfl⟩⟩
  · obtain ⟨n, hn⟩ := Option.isSome_iff_exists.1 ((C63_create .ribUnregister localhostNfd _).2 hv2)
    obtain ⟨q, r, h1, h2, h3⟩ := C148_success_partial faceId hf .ribUnregister (.inr rfl) _ (hok none (fun x hx => by cases hx))
      (by have := hsz none; omega) n suffix hn
    refine ⟨n, r, hn, h2, (h3 _).2 ⟨h1.symm, h0, fun e => by cases e⟩⟩

/-- Nothing else is answered: an Interest is ignored unless its name has more than four components and is under `/localhost/nfd/rib`; then
it is answered, with code 200, exactly if its fifth component holds control parameters, and otherwise an exception is thrown. -/
theorem C148_others (faceId : Nat) (name : List Comp) :
    (registrationReply faceId name = .ignored ↔ ¬ (localhostRib <+: name ∧ 4 < name.length)) ∧
    (localhostRib <+: name → ∀ c, name[4]? = some c →
      ((∃ b p, blockFromValue c.value = some b ∧ Params.decode b = some p) ↔ registrationReply faceId name ≠ .threw)) ∧
    ∀ r, registrationReply faceId name = .answer r → r.code = 200 ∧ r.body.isSome := by
  have hlen : ∀ c, name[4]? = some c → 4 < name.length := fun c h => by
    have := List.getElem?_eq_some_iff.1 h
    exact this.1
  unfold registrationReply
  by_cases h : name.length ≤ 4 ∨ (!localhostRib.isPrefixOf name) = true
  · rw [if_pos h]
    have h' : ¬ (localhostRib <+: name ∧ 4 < name.length) := by
      rintro ⟨h1, h2⟩
      rcases h with h | h
      · omega
      · simp [List.isPrefixOf_iff_prefix.2 h1] at h
    refine ⟨by simp [h'], fun h1 c hc => absurd ⟨h1, hlen c hc⟩ h', fun r hr => by cases hr⟩
  · rw [if_neg h]
    have h' : localhostRib <+: name ∧ 4 < name.length := by
      simp only [not_or] at h
      exact ⟨List.isPrefixOf_iff_prefix.1 (by simpa using h.2), by omega⟩
    refine ⟨?_, ?_, ?_⟩
    · simp only [h', and_self, not_true_eq_false, iff_false]
      split
      · simp
      · split <;> simp
    · intro _ c hc
      rw [hc]
      simp only [Option.bind_some]
      cases hb : blockFromValue c.value with
      | none => simp
      | some b =>
        cases hd : Params.decode b with
        | none => simp [hd]
        | some p => simp [hd]
    · intro r hr
      split at hr
      · cases hr
      · split at hr
        · cases hr
        · cases hr; exact ⟨rfl, rfl⟩

/-- The claim for all parameters a request may have. -/
def C148_success_claim : Prop := ∀ (faceId : Nat) (p : Params) (n : List Comp) (r : Nfd.Response), faceId ≠ 0 →
  Command.createRequest .ribRegister localhostNfd p = some n → registrationReply faceId n = .answer r →
  ∃ q, Nfd.Reports .ribRegister (Nfd.Response.codec.encode r).wire q

private def bare : Params := { name := some [⟨8, [120]⟩] }

private theorem bare_ok : Ok bare := by
  refine ⟨?_, ?_, ?_, ?_, ?_, ?_, ?_, ?_, ?_, ?_, ?_, ?_, ?_, ?_, by decide +kernel⟩ <;> intro x hx <;> cases hx
  intro c hc; simp at hc; subst hc; decide

/-- A `rib/register` command without flags is valid (flags are optional, with a default), but the made-up answer has no flags either, which
the Controller refuses: it reports that the response is invalid. A forwarder fills in the default. -/
theorem C148_success_counterexample : ¬ C148_success_claim := by
  intro h
  obtain ⟨n, hn⟩ := Option.isSome_iff_exists.1 ((C63_create .ribRegister localhostNfd bare).2 (by decide))
  obtain ⟨q, r, -, h2, h3⟩ := C148_success_partial 1 (by decide) .ribRegister (.inl rfl) bare bare_ok (by decide +kernel) n [] hn
  rw [List.append_nil] at h2
  obtain ⟨q', hq⟩ := h 1 bare n r (by decide) hn h2
  have := ((h3 q').1 hq).2.2 rfl
  revert this
  decide

/-- The claim for a face ID that stands for the own face. -/
def C148_self_claim : Prop := ∀ (faceId : Nat) (p : Params) (n : List Comp) (r : Nfd.Response), faceId ≠ 0 → p.faceId = some 0 →
  Command.createRequest .ribUnregister localhostNfd p = some n → registrationReply faceId n = .answer r →
  ∃ q, Nfd.Reports .ribUnregister (Nfd.Response.codec.encode r).wire q

private def selfP : Params := { name := some [⟨8, [120]⟩], faceId := some 0 }

private theorem selfP_ok : Ok selfP := by
  refine ⟨?_, ?_, ?_, ?_, ?_, ?_, ?_, ?_, ?_, ?_, ?_, ?_, ?_, ?_, by decide +kernel⟩ <;> intro x hx <;> cases hx
  · intro c hc; simp at hc; subst hc; decide
  · decide

/-- A command with face ID zero, which stands for the face the command comes from, is answered with face ID zero, which the
Controller refuses. -/
theorem C148_self_counterexample : ¬ C148_self_claim := by
  intro h
  obtain ⟨n, hn⟩ := Option.isSome_iff_exists.1 ((C63_create .ribUnregister localhostNfd selfP).2 (by decide))
  obtain ⟨q, r, -, h2, h3⟩ := C148_success_partial 1 (by decide) .ribUnregister (.inr rfl) selfP selfP_ok (by decide +kernel) n [] hn
  rw [List.append_nil] at h2
  obtain ⟨q', hq⟩ := h 1 selfP n r (by decide) rfl hn h2
  exact ((h3 q').1 hq).2.1 rfl

/-- The claim that sending an Interest does not fail. -/
def C148_throws_claim : Prop := ∀ faceId name, registrationReply faceId name ≠ .threw

/-- An Interest for `rib/announce`, whose fifth component is a digest, makes the face throw a TLV error from the event loop. So does any
other Interest under `/localhost/nfd/rib` of this length without parameters in its name. -/
theorem C148_throws_counterexample : ¬ C148_throws_claim := by
  intro h
  refine h 1 (localhostRib ++ [⟨8, strBytes "announce"⟩, ⟨2, List.replicate 32 0⟩]) ?_
  decide +kernel

/-- The hypotheses of the theorems can be met. -/
example : ∃ n, Command.createRequest .ribRegister localhostNfd { name := some [⟨8, [120]⟩], flags := some 1 } = some n ∧ n.length = 5 :=
  ⟨_, rfl, rfl⟩

example := C148_face 1 (by decide) (by decide) [⟨8, [120]⟩] (by unfold NameWF; decide +kernel) 1 (by decide) (by decide +kernel)
  [⟨2, List.replicate 32 1⟩]

end Ndn.Dummy
