import Verif.Nfd.ControllerLemmas4
import Verif.Nfd.ItemsProps2
/-
C91: an NFD controller reports what became of each command and dataset request.
-/
namespace Ndn.Nfd
open Tlv Tlv.Spec Block Block.Spec Name Packet Packet.Spec Mgmt

/-- What was observed at each event, for a new Controller. -/
def clog (es : List CEv) : CLog := es.zip (Ctl.run es {}).1

/-- At every event of every history, what is observed is what the specification says about the past. -/
theorem C91_processing (es : List CEv) (l1 : CLog) (e : CEv) (os : List COut) (l2 : CLog) (h : clog es = l1 ++ (e, os) :: l2) :
    CExpected l1 e os := by
  obtain ⟨s', h1, rfl⟩ := run_split es [] {} cinv_init l1 e os l2 h
  exact expected_step (by simpa using h1) e

/-- A command has at most one outcome, a fetch at most one. -/
theorem C91_once (es : List CEv) (k : Nat) :
    ((clog es).flatMap Prod.snd).countP (isOutcome k) ≤ 1 ∧ ((clog es).flatMap Prod.snd).countP (isAnswer k) ≤ 1 := by
  have hz : ∀ (es : List CEv) (s : Ctl), (es.zip (Ctl.run es s).1).flatMap Prod.snd = (Ctl.run es s).1.flatten := by
    intro es
    induction es with
    | nil => intro s; rfl
    | cons e es ih => intro s; simp only [Ctl.run, List.zip_cons_cons, List.flatMap_cons, List.flatten_cons, ih]
  unfold clog
  rw [hz]
  have h1 := outcome_run es k {}
  have h2 := over_le (Ctl.run es {}).2 k
  have h3 := answer_run es k {}
  have h4 := stopped_le (Ctl.run es {}).2 k
  omega

/-- Success is reported only when the answer to this very command was validated and says, with parameters the command
allows, that it was carried out; these are the parameters reported. -/
theorem C91_success (es : List CEv) (l1 : CLog) (e : CEv) (os : List COut) (l2 : CLog) (h : clog es = l1 ++ (e, os) :: l2)
    (i : Nat) (p : Params) (ho : .success i p ∈ os) :
    e = .valid i ∧ ∃ c onF content, Validating l1 i c true onF content ∧ Reports c content p := by
  have hx := C91_processing es l1 e os l2 h
  have hif : ∀ (b : Bool) (o : COut) (rest : List COut), (∀ o' ∈ o :: rest, o' ≠ .success i p) → os = (if b then o :: rest else []) → False := by
    intro b o rest hn he
    subst he
    cases b
    · simp at ho
    · exact hn _ ho rfl
  cases e with
  | start c pfx p' a b =>
    by_cases hg : Gone l1
    · rw [hx.1 hg] at ho; cases ho
    · cases hc : c.createRequest pfx p' with
      | none => rw [(hx.2 hg).1 hc] at ho; simp at ho
      | some n => obtain ⟨k, hk, -⟩ := (hx.2 hg).2 n hc; rw [hk] at ho; simp at ho
  | data k ct =>
    by_cases hw : ∃ c a b, Waiting l1 k c a b
    · obtain ⟨c, a, b, hw⟩ := hw
      by_cases hg : Gone l1
      · rw [(hx.1 c a b hw).2 hg] at ho; simp at ho
      · rw [(hx.1 c a b hw).1 hg] at ho; cases ho
    · rw [hx.2 (fun c a b hh => hw ⟨c, a, b, hh⟩)] at ho; cases ho
  | nack k =>
    by_cases hw : ∃ c a b, Waiting l1 k c a b
    · obtain ⟨c, a, b, hw⟩ := hw
      exact (hif _ _ _ (by simp) (hx.1 c a b hw)).elim
    · rw [hx.2 (fun c a b hh => hw ⟨c, a, b, hh⟩)] at ho; cases ho
  | timeout k =>
    by_cases hw : ∃ c a b, Waiting l1 k c a b
    · obtain ⟨c, a, b, hw⟩ := hw
      exact (hif _ _ _ (by simp) (hx.1 c a b hw)).elim
    · rw [hx.2 (fun c a b hh => hw ⟨c, a, b, hh⟩)] at ho; cases ho
  | invalid k =>
    by_cases hw : ∃ c a b ct, Validating l1 k c a b ct
    · obtain ⟨c, a, b, ct, hw⟩ := hw
      exact (hif _ _ _ (by simp) (hx.1 c a b ct hw)).elim
    · rw [hx.2 (fun c a b ct hh => hw ⟨c, a, b, ct, hh⟩)] at ho; cases ho
  | valid k =>
    by_cases hw : ∃ c a b ct, Validating l1 k c a b ct
    · obtain ⟨c, a, b, ct, hw⟩ := hw
      obtain ⟨g1, g2, g3⟩ := hx.1 c a b ct hw
      by_cases hr : ∃ p', Reports c ct p'
      · obtain ⟨p', hr⟩ := hr
        have := g1 p' hr
        cases a with
        | false => rw [this] at ho; simp at ho
        | true =>
          rw [this] at ho
          simp only [if_true, List.mem_singleton, COut.success.injEq] at ho
          obtain ⟨rfl, rfl⟩ := ho
          exact ⟨rfl, c, b, ct, hw, hr⟩
      · by_cases hs : ∃ r, HoldsResponse ct r ∧ 400 ≤ r.code
        · obtain ⟨r, h1, h2⟩ := hs
          exact (hif _ _ _ (by simp) (g2 r h1 h2)).elim
        · refine (hif _ _ _ (by simp) (g3 (fun p' hp => hr ⟨p', hp⟩) (fun r h1 => ?_))).elim
          exact Nat.lt_of_not_le fun h2 => hs ⟨r, h1, h2⟩
    · rw [hx.2 (fun c a b ct hh => hw ⟨c, a, b, ct, hh⟩)] at ho; cases ho
  | fetch d pfx a b =>
    by_cases hg : Gone l1
    · rw [hx.1 hg] at ho; cases ho
    · obtain ⟨k, hk, -⟩ := hx.2 hg; rw [hk] at ho; simp at ho
  | complete j pl de =>
    have haft : ∀ o' ∈ afterwards de, o' ≠ .success i p := by cases de <;> simp [afterwards]
    by_cases hw : ∃ d a b, Fetching l1 j d a b
    · obtain ⟨d, a, b, hw⟩ := hw
      obtain ⟨g1, g2, g3, g4⟩ := hx.1 d a b hw
      cases hp : d.parse pl with
      | ok r => exact (hif _ _ _ (by simp; exact fun o' h' => haft o' h') (g1 r hp)).elim
      | tlvError => exact (hif _ _ _ (by simp; exact fun o' h' => haft o' h') (g2 hp)).elim
      | invalidArgument => rw [g3 hp] at ho; simp at ho
      | ub => rw [g4 hp] at ho; simp at ho
    · rw [hx.2 (fun c a b hh => hw ⟨c, a, b, hh⟩)] at ho; cases ho
  | error j co de =>
    have haft : ∀ o' ∈ afterwards de, o' ≠ .success i p := by cases de <;> simp [afterwards]
    by_cases hw : ∃ d a b, Fetching l1 j d a b
    · obtain ⟨d, a, b, hw⟩ := hw
      obtain ⟨g1, g2⟩ := hx.1 d a b hw
      cases hp : codeOf co with
      | some n => exact (hif _ _ _ (by simp; exact fun o' h' => haft o' h') (g1 n hp)).elim
      | none => rw [g2 hp] at ho; cases ho
    · rw [hx.2 (fun c a b hh => hw ⟨c, a, b, hh⟩)] at ho; cases ho
  | destroy => rw [show os = [] from hx] at ho; cases ho

/-- The server's side: a response with a code below 400 and a body with parameters that the command allows is understood
as such, and one with an error code as that error. -/
theorem C91_understood (c : Command) (r : Response) (h : r.Ok) :
    HoldsResponse (Response.codec.encode r).wire r ∧
    ∀ p, Mgmt.Ok p → r.code < 400 → r.body = some p.encode → c.validateResponse p = .accept →
      Reports c (Response.codec.encode r).wire p := by
  obtain ⟨h1, h2⟩ := C85_roundtrip r h ⟨none, {}⟩
  have hr : HoldsResponse (Response.codec.encode r).wire r :=
    (holdsResponse_iff ..).2 ⟨_, blockFromValue_iff.2 ⟨rfl, h1⟩, h2⟩
  exact ⟨hr, fun p hp hc hb hv => ⟨r, p.encode, hr, hc, hb, C62_roundtrip p hp, hv⟩⟩

theorem at_log (es : List CEv) (k : Nat) (e : CEv) (os : List COut) (h1 : es[k]? = some e) (h2 : (Ctl.run es {}).1[k]? = some os) :
    (e, os) ∈ clog es :=
  List.mem_of_getElem? (i := k) (by rw [clog, List.getElem?_zip_eq_some]; exact ⟨h1, h2⟩)

/-- No event ever causes undefined behaviour. -/
def C91_defined_claim : Prop := ∀ es, ∀ x ∈ clog es, .ub ∉ x.2

def sampleStart : CEv := .start .csErase [⟨8, [108]⟩] { name := some [⟨8, [97]⟩] } true true

/-- It is false: Data for a command arrives after the Controller was destroyed, and the handler uses it. -/
theorem C91_defined_counterexample : ¬ C91_defined_claim := by
  intro h
  exact h [sampleStart, .destroy, .data 0 []] (.data 0 [], [.ub]) (by
    have h : (Ctl.run [sampleStart, .destroy, .data 0 []] {}).1[2]? = some [.ub] := by decide +kernel
    exact at_log _ 2 _ _ rfl h) (by simp)

/-- It is false also when the application destroys the Controller in the callback of a dataset: the library then erases
the fetcher from the destroyed Controller. -/
theorem C91_callback_counterexample : ¬ C91_defined_claim := by
  intro h
  exact h [.fetch .fib [⟨8, [108]⟩] true true, .complete 0 [] true] (.complete 0 [] true, [.result 0 (.fib []), .ub])
    (at_log _ 1 _ _ rfl (by decide +kernel)) (by simp)

/-- It holds as long as the Controller is not destroyed, by the application or in a callback, except for a forwarder
status whose time stamps are out of range. -/
theorem C91_defined_partial (es : List CEv) (h1 : .destroy ∉ es) (h2 : ∀ j p, .complete j p true ∉ es) (h3 : ∀ j c, .error j c true ∉ es)
    (h4 : ∀ j p, .complete j p false ∈ es → Dataset.general.parse p ≠ .ub) : ∀ x ∈ clog es, .ub ∉ x.2 := by
  rintro ⟨e, os⟩ hx ho
  obtain ⟨l1, l2, hl⟩ := List.append_of_mem hx
  have hex := C91_processing es l1 e os l2 hl
  have hmem : ∀ y ∈ clog es, y.1 ∈ es := by
    intro y hy
    exact (List.of_mem_zip (a := y.1) (b := y.2) hy).1
  have he : e ∈ es := hmem _ hx
  have hng : ¬ Gone l1 := by
    rintro ⟨y, hy, hh⟩
    have hy' := hmem y (by rw [hl]; exact List.mem_append_left _ hy)
    rcases hh with hh | ⟨j, ⟨p, hh⟩ | ⟨c, hh⟩, -⟩
    · rw [hh] at hy'; exact h1 hy'
    · rw [hh] at hy'; exact h2 j p hy'
    · rw [hh] at hy'; exact h3 j c hy'
  have hif : ∀ (b : Bool) (o : COut), o ≠ .ub → os = (if b then [o] else []) → False := by
    intro b o hn he
    subst he
    cases b
    · simp at ho
    · simp only [if_true, List.mem_singleton] at ho; exact hn ho.symm
  dsimp only at ho
  cases e with
  | start c pfx p' a b =>
    cases hc : c.createRequest pfx p' with
    | none => rw [(hex.2 hng).1 hc] at ho; simp at ho
    | some n => obtain ⟨k, hk, -⟩ := (hex.2 hng).2 n hc; rw [hk] at ho; simp at ho
  | data k ct =>
    by_cases hw : ∃ c a b, Waiting l1 k c a b
    · obtain ⟨c, a, b, hw⟩ := hw
      rw [(hex.1 c a b hw).1 hng] at ho; cases ho
    · rw [hex.2 (fun c a b hh => hw ⟨c, a, b, hh⟩)] at ho; cases ho
  | nack k =>
    by_cases hw : ∃ c a b, Waiting l1 k c a b
    · obtain ⟨c, a, b, hw⟩ := hw
      exact hif _ _ (by simp) (hex.1 c a b hw)
    · rw [hex.2 (fun c a b hh => hw ⟨c, a, b, hh⟩)] at ho; cases ho
  | timeout k =>
    by_cases hw : ∃ c a b, Waiting l1 k c a b
    · obtain ⟨c, a, b, hw⟩ := hw
      exact hif _ _ (by simp) (hex.1 c a b hw)
    · rw [hex.2 (fun c a b hh => hw ⟨c, a, b, hh⟩)] at ho; cases ho
  | invalid k =>
    by_cases hw : ∃ c a b ct, Validating l1 k c a b ct
    · obtain ⟨c, a, b, ct, hw⟩ := hw
      exact hif _ _ (by simp) (hex.1 c a b ct hw)
    · rw [hex.2 (fun c a b ct hh => hw ⟨c, a, b, ct, hh⟩)] at ho; cases ho
  | valid k =>
    by_cases hw : ∃ c a b ct, Validating l1 k c a b ct
    · obtain ⟨c, a, b, ct, hw⟩ := hw
      obtain ⟨g1, g2, g3⟩ := hex.1 c a b ct hw
      by_cases hr : ∃ p', Reports c ct p'
      · obtain ⟨p', hr⟩ := hr
        exact hif _ _ (by simp) (g1 p' hr)
      · by_cases hs : ∃ r, HoldsResponse ct r ∧ 400 ≤ r.code
        · obtain ⟨r, k1, k2⟩ := hs
          exact hif _ _ (by simp) (g2 r k1 k2)
        · refine hif _ _ (by simp) (g3 (fun p' hp => hr ⟨p', hp⟩) (fun r k1 => ?_))
          exact Nat.lt_of_not_le fun k2 => hs ⟨r, k1, k2⟩
    · rw [hex.2 (fun c a b ct hh => hw ⟨c, a, b, ct, hh⟩)] at ho; cases ho
  | fetch d pfx a b =>
    obtain ⟨k, hk, -⟩ := hex.2 hng; rw [hk] at ho; simp at ho
  | complete j pl de =>
    cases de with
    | true => exact h2 j pl he
    | false =>
      by_cases hw : ∃ d a b, Fetching l1 j d a b
      · obtain ⟨d, a, b, hw⟩ := hw
        obtain ⟨g1, g2, g3, g4⟩ := hex.1 d a b hw
        cases hp : d.parse pl with
        | ok r => exact hif _ _ (by simp) (g1 r hp)
        | tlvError => exact hif _ _ (by simp) (g2 hp)
        | invalidArgument => rw [g3 hp] at ho; simp at ho
        | ub =>
          have hd : d = .general := by
            cases d with
            | general => rfl
            | cs =>
              by_cases hpl : pl = []
              · subst hpl; cases hp
              · rcases C88_error_partial .cs pl (fun _ => hpl) (fun h => by cases h) with ⟨r, hh⟩ | hh <;> rw [hp] at hh <;> cases hh
            | faces => rcases C88_error_partial (.faces) pl (fun h => by cases h) (fun h => by cases h) with ⟨r, hh⟩ | hh <;> rw [hp] at hh <;> cases hh
            | query f => rcases C88_error_partial (.query f) pl (fun h => by cases h) (fun h => by cases h) with ⟨r, hh⟩ | hh <;> rw [hp] at hh <;> cases hh
            | channels => rcases C88_error_partial (.channels) pl (fun h => by cases h) (fun h => by cases h) with ⟨r, hh⟩ | hh <;> rw [hp] at hh <;> cases hh
            | fib => rcases C88_error_partial (.fib) pl (fun h => by cases h) (fun h => by cases h) with ⟨r, hh⟩ | hh <;> rw [hp] at hh <;> cases hh
            | strategies => rcases C88_error_partial (.strategies) pl (fun h => by cases h) (fun h => by cases h) with ⟨r, hh⟩ | hh <;> rw [hp] at hh <;> cases hh
            | rib => rcases C88_error_partial (.rib) pl (fun h => by cases h) (fun h => by cases h) with ⟨r, hh⟩ | hh <;> rw [hp] at hh <;> cases hh
          subst hd
          exact h4 j pl he hp
      · rw [hex.2 (fun c a b hh => hw ⟨c, a, b, hh⟩)] at ho; cases ho
  | error j co de =>
    cases de with
    | true => exact h3 j co he
    | false =>
      by_cases hw : ∃ d a b, Fetching l1 j d a b
      · obtain ⟨d, a, b, hw⟩ := hw
        obtain ⟨g1, g2⟩ := hex.1 d a b hw
        cases hp : codeOf co with
        | some n => exact hif _ _ (by simp) (g1 n hp)
        | none => rw [g2 hp] at ho; cases ho
      · rw [hex.2 (fun c a b hh => hw ⟨c, a, b, hh⟩)] at ho; cases ho
  | destroy => rw [show os = [] from hex] at ho; cases ho

/-- When a dataset has been fetched, one of the callbacks is called. -/
def C91_reported_claim : Prop :=
  ∀ es l1 j payload destroys os l2, clog es = l1 ++ (.complete j payload destroys, os) :: l2 →
    ∀ d, Fetching l1 j d true true → CalledBack j os

/-- It is false: for an empty `cs/info` dataset neither callback is called; an exception goes to the event loop. -/
theorem C91_reported_counterexample : ¬ C91_reported_claim := by
  intro h
  have := h [.fetch .cs [] true true, .complete 0 [] false] [(.fetch .cs [] true true, [.fetching 0 (Dataset.cs.name [])])]
    0 [] false [.escaped] [] (by rfl) .cs
    ⟨by simp [Gone], [], [], _, [], rfl, (fun _ h => by cases h)⟩
  rcases this with ⟨r, hr⟩ | ⟨n, hn⟩
  · simp at hr
  · simp at hn

/-- It holds for every other payload, except a forwarder status whose time stamps are out of range. -/
theorem C91_reported_partial (es : List CEv) (l1 : CLog) (j : Nat) (payload : Bytes) (destroys : Bool) (os : List COut) (l2 : CLog)
    (h : clog es = l1 ++ (.complete j payload destroys, os) :: l2) (d : Dataset) (hf : Fetching l1 j d true true)
    (h1 : d = .cs → payload ≠ []) (h2 : d = .general → TimesFit (binaryBlock 21 payload)) : CalledBack j os := by
  obtain ⟨g1, g2, -⟩ := (C91_processing es _ _ _ _ h).1 d true true hf
  rcases C88_error_partial d payload h1 h2 with ⟨r, hr⟩ | hr
  · rw [g1 r hr]; exact .inl ⟨r, by simp⟩
  · rw [g2 hr]; exact .inr ⟨500, by simp⟩

/-! ### The hypotheses are met -/

def sampleAnswer : Response := { code := 200, text := [79, 75], body := some (Params.encode { name := some [⟨8, [97]⟩], count := some 3 }) }

/-- A command is carried out, another one times out; a dataset is fetched meanwhile. -/
def sampleHistory : List CEv :=
  [sampleStart, .fetch .fib [⟨8, [108]⟩] true true, .data 0 (Response.codec.encode sampleAnswer).wire, sampleStart, .valid 0, .timeout 1,
   .complete 0 (Fib.codec.encode sampleFib).wire false, .nack 0]

example : ((clog sampleHistory).map Prod.snd).drop 4 =
    [[.success 0 { name := some [⟨8, [97]⟩], count := some 3 }], [.failure 1 (.library 10060)], [.result 0 (.fib [sampleFib])], []] := by
  decide +kernel

example : sampleAnswer.Ok ∧ Mgmt.Ok { name := some [⟨8, [97]⟩], count := some 3 } ∧
    Command.csErase.validateResponse { name := some [⟨8, [97]⟩], count := some 3 } = .accept := by
  have hok : Mgmt.Ok { name := some [⟨8, [97]⟩], count := some 3 } := by
    refine ⟨?_, ?_, ?_, ?_, ?_, ?_, ?_, ?_, ?_, ?_, ?_, ?_, ?_, ?_, by decide +kernel⟩ <;> intro x hx <;> cases hx
    · intro c hc; simp at hc; subst hc; decide
    · decide
  exact ⟨⟨by decide, all_some (C62_encode_element _ hok).1, by decide +kernel⟩, hok, by decide⟩

example : .destroy ∉ sampleHistory ∧ (∀ j p, .complete j p true ∉ sampleHistory) ∧ (∀ j c, .error j c true ∉ sampleHistory) := by
  simp [sampleHistory, sampleStart]

end Ndn.Nfd
