import Verif.Flow.Props
import Verif.Mgmt.DatasetProps
import Verif.Mgmt.DispatcherLemmas
import Verif.Nfd.DatasetsProps
import Verif.Nfd.ControllerSpec
/-
C139: a dataset answered through the dispatcher and fetched arrives intact.
-/
namespace Ndn.Flow
open Ndn.Packet Ndn.Name Ndn.Block Ndn.Tlv Ndn.Packet.Spec Ndn.Mgmt Spec

namespace Spec

/-- The context of a handler that appended `bytes`, in any number of calls, and called `end`. -/
def Response (st : Settings) (c : Ctx) (bytes : Bytes) : Prop :=
  ∃ interest v c0 ops, Ctx.make st interest v = some c0 ∧ c = (Ctx.run st ops c0).2 ∧
    Ended (ops.zip (Ctx.run st ops c0).1) ∧ appendedBy (ops.zip (Ctx.run st ops c0).1) = bytes ∧ bytes.length < 2 ^ 64

/-- The packets the dispatcher stores for a response, and sends when asked for. -/
def packets (p : Segmenter.Params) (c : Ctx) : List DFields :=
  (storesOf (c.out.flatMap (sendOne p.settings c.interest))).filterMap (sendData p)

end Spec

theorem segmentsFrom_get (s : Settings) (pfx : List Comp) (xs : List Bytes) : ∀ (n : Nat) o, o ∈ segmentsFrom s pfx true n xs →
    ∃ i x, xs[i]? = some x ∧ o = .data (pfx ++ [Name.Spec.convComp s.encodeMarker .segment (n + i)]) x (i + 1 = xs.length) := by
  induction xs with
  | nil => intro n o h; simp [segmentsFrom] at h
  | cons x xs ih =>
    intro n o h
    rcases List.mem_cons.mp h with rfl | h
    · refine ⟨0, x, rfl, ?_⟩
      cases xs <;> simp
    · obtain ⟨i, y, h1, h2⟩ := ih (n + 1) o h
      refine ⟨i + 1, y, h1, ?_⟩
      rw [h2, show n + 1 + i = n + (i + 1) by omega]
      simp

theorem conv_to (st : Settings) (hd : if st.encodeMarker then st.decodeMarker = true else st.decodeTyped = true) (n : Nat) (hn : n < 2 ^ 64) :
    Conv.segment.to st (Name.Spec.convComp st.encodeMarker .segment n) = some n := by
  obtain ⟨c, h3, _, h5⟩ := C16_roundtrip st .segment n hn hd
  rw [Conv.from_eq] at h3
  simp only [Option.some.injEq] at h3
  rw [h3]; exact h5

theorem sendData_fields {p : Segmenter.Params} {x : OutData} {f : DFields} (h : sendData p x = some f) :
    f.name = x.name ∧ f.minfo.finalBlock = x.final ∧ f.minfo.type = (if x.nack then 3 else 0) ∧
    f.content = some (binaryBlock 21 (match x.content with | .resp _ => (contentBlock x.content).wire | .bytes b => b)) := by
  obtain ⟨o, h1, h2⟩ := Option.bind_eq_some_iff.mp h
  unfold Segmenter.signed at h2
  obtain ⟨r, _, rfl⟩ := Option.map_eq_some_iff.mp h2
  simp [Segmenter.calls, DObj.step, DObj.reset, DObj.init, MetaInfo.init, MetaInfo.getFreshness] at h1
  subst h1
  refine ⟨rfl, rfl, rfl, ?_⟩
  cases x.content with
  | resp r => rfl
  | bytes b => rfl

theorem store_mem {x : OutData} : ∀ {os : List Out}, x ∈ storesOf os → Out.store x ∈ os := by
  intro os
  induction os with
  | nil => intro h; simp [storesOf] at h
  | cons o os ih =>
    intro h
    cases o with
    | store y =>
      rcases List.mem_cons.mp (show x ∈ y :: storesOf os from h) with rfl | h
      · simp
      · exact List.mem_cons_of_mem _ (ih h)
    | _ => exact List.mem_cons_of_mem _ (ih h)

/-- A packet of a response is received as the segment it is. -/
theorem receive_dataset (p : Segmenter.Params) (num : List Comp → Nat) (c : Ctx) (cs : List Bytes) (hlen : cs.length ≤ 2 ^ 64)
    (hc : c.out = segmentsFrom p.settings c.pfx true 0 cs)
    (hd : if p.settings.encodeMarker then p.settings.decodeMarker = true else p.settings.decodeTyped = true) (f : DFields)
    (hf : f ∈ packets p c) (hwf : DataWF f) (wire : Bytes) (he : f.encode = some wire) :
    ∃ i x, cs[i]? = some x ∧
      receive p.settings num wire = some ⟨num c.pfx, some i, if i + 1 = cs.length then some (some i) else none, x⟩ := by
  obtain ⟨o, ho, hp⟩ := List.mem_filterMap.mp hf
  obtain ⟨t, ht, hs⟩ := List.mem_flatMap.mp (store_mem ho)
  rw [hc] at ht
  obtain ⟨i, x, hi, rfl⟩ := segmentsFrom_get _ _ _ _ _ ht
  rw [Nat.zero_add] at hs
  have hlt : i < cs.length := (List.getElem?_eq_some_iff.mp hi).1
  have hcv := conv_to p.settings hd i (by omega)
  refine ⟨i, x, hi, ?_⟩
  obtain ⟨w, b, h1, h2, h3, _⟩ := C23_roundtrip f hwf
  rw [he, Option.some.injEq] at h1
  subst h1
  obtain ⟨g1, g2, _, g3⟩ := sendData_fields hp
  simp only [sendOne, List.getLast?_append, List.getLast?_singleton, Option.some_or, hcv] at hs
  have hx : o = (⟨c.pfx ++ [Name.Spec.convComp p.settings.encodeMarker .segment i], .bytes x, false,
      if decide (i + 1 = cs.length) then some (Name.Spec.convComp p.settings.encodeMarker .segment i) else none⟩ : OutData) := by
    split at hs <;> simpa using hs
  subst hx
  unfold receive
  rw [h2]
  simp only [h3, Option.bind_some]
  simp only [view, g1, g2, g3, List.getLast?_append, List.getLast?_singleton, Option.some_or, Option.map_some, hcv, List.dropLast_concat, Option.getD_some]
  by_cases hx : i + 1 = cs.length
  · simp [hx, hcv, binaryBlock]
  · simp [hx, binaryBlock]

theorem response_cut {p : Segmenter.Params} {c : Ctx} {bytes : Bytes} (h : Response p.settings c bytes) :
    ∃ cs : List Bytes, cs ≠ [] ∧ cs.flatten = bytes ∧ cs.length ≤ 2 ^ 64 ∧ c.out = segmentsFrom p.settings c.pfx true 0 cs := by
  obtain ⟨interest, v, c0, ops, h1, rfl, h2, rfl, h3⟩ := h
  obtain ⟨cs, hc, ho⟩ := C64_complete p.settings interest v c0 ops h1 _ rfl h2 h3
  refine ⟨cs, hc.nonempty, hc.complete, ?_, ho⟩
  have : ∀ k ≤ cs.length - 1, k ≤ ((cs.take k).flatten).length := by
    intro k
    induction k with
    | zero => intro _; exact Nat.zero_le _
    | succ k ih =>
      intro hk
      have hlt : k < cs.length := by omega
      have h4 := hc.full k cs[k] (List.getElem?_eq_getElem hlt) (by omega)
      rw [List.take_succ_eq_append_getElem hlt, List.flatten_append, List.length_append]
      have := ih (by omega)
      simp only [List.flatten_cons, List.flatten_nil, List.append_nil, h4]
      omega
  have h5 := this (cs.length - 1) (Nat.le_refl _)
  have h6 : ((cs.take (cs.length - 1)).flatten).length ≤ cs.flatten.length := by
    conv => rhs; rw [← List.take_append_drop (cs.length - 1) cs, List.flatten_append, List.length_append]
    omega
  rw [hc.complete] at h6
  omega

/-- The packets validated are segments of a response. -/
theorem validated_dataset {p : Segmenter.Params} {num : List Comp → Nat} {cfg : Fetch.Cfg} {evs : List Ev} {rs : List (Ctx × Bytes)}
    (hr : ∀ r ∈ rs, Response p.settings r.1 r.2)
    (hd : if p.settings.encodeMarker then p.settings.decodeMarker = true else p.settings.decodeTyped = true)
    (hwf : ∀ r ∈ rs, ∀ f ∈ packets p r.1, DataWF f)
    (ht : Trusted p.settings num cfg (rs.flatMap fun r => packets p r.1) evs) {d : Fetch.Data}
    (h : Fetch.Obs.validated d ∈ (run p.settings num cfg evs).log) :
    ∃ r ∈ rs, d.obj = num r.1.pfx ∧ ∀ cs : List Bytes, cs.length ≤ 2 ^ 64 → r.1.out = segmentsFrom p.settings r.1.pfx true 0 cs →
      (∃ i, d.seg = some i ∧ cs[i]? = some d.content) ∧ ∀ f, d.final = some (some f) → f = cs.length - 1 := by
  obtain ⟨wire, ⟨f, hf, he⟩, hw⟩ := accepted ht h
  obtain ⟨r, hr1, hr2⟩ := List.mem_flatMap.mp hf
  have key : ∀ cs : List Bytes, cs.length ≤ 2 ^ 64 → r.1.out = segmentsFrom p.settings r.1.pfx true 0 cs →
      d.obj = num r.1.pfx ∧ (∃ i, d.seg = some i ∧ cs[i]? = some d.content) ∧ ∀ f, d.final = some (some f) → f = cs.length - 1 := by
    intro cs h1 h2
    obtain ⟨i, x, h3, h4⟩ := receive_dataset p num r.1 cs h1 h2 hd f hr2 (hwf r hr1 f hr2) wire he
    rw [hw, Option.some.injEq] at h4
    subst h4
    refine ⟨rfl, ⟨i, rfl, h3⟩, ?_⟩
    intro g hg
    dsimp only at hg
    split at hg
    · simp only [Option.some.injEq] at hg; omega
    · cases hg
  obtain ⟨cs, _, _, h1, h2⟩ := response_cut (hr r hr1)
  exact ⟨r, hr1, (key cs h1 h2).1, fun cs h1 h2 => (key cs h1 h2).2⟩

/-- A dataset a handler answers with, sent by the dispatcher and fetched by the segment fetcher, arrives intact, if the validator
accepts only the packets of that response: whatever octets arrive, in whatever order and however often, and whatever is lost,
nacked, late or rejected, a completed fetch delivers exactly what the handler appended, and `Controller::fetch` reads from it the
items that this spells. In in-order mode what is delivered is a prefix of it, and all of it upon completion. -/
theorem C139_dataset (p : Segmenter.Params) (num : List Comp → Nat) (c : Ctx) (bytes : Bytes) (hr : Response p.settings c bytes)
    (hd : if p.settings.encodeMarker then p.settings.decodeMarker = true else p.settings.decodeTyped = true)
    (hwf : ∀ f ∈ packets p c, DataWF f) (cfg : Fetch.Cfg) (evs : List Ev) (ht : Trusted p.settings num cfg (packets p c) evs)
    (hl : (run p.settings num cfg evs).log.length < 2 ^ 63) :
    (∀ buf, Fetch.Obs.complete buf ∈ (run p.settings num cfg evs).log →
      buf = bytes ∧ ∀ (d : Nfd.Dataset) (res : Nfd.Result), d.Says bytes res → d.parse buf = .ok res) ∧
    (Fetch.Spec.delivered (run p.settings num cfg evs).log).flatten <+: bytes ∧
    (Fetch.Obs.inOrderComplete ∈ (run p.settings num cfg evs).log →
      (Fetch.Spec.delivered (run p.settings num cfg evs).log).flatten = bytes) := by
  have hok : Fetch.Spec.Ok (run p.settings num cfg evs).log := Fetch.C39_signals cfg _ (valid p.settings num evs) hl
  obtain ⟨cs, h1, h2, h3, h4⟩ := response_cut hr
  have h5 := intact_core hok cs h1 (by
    intro d hdl
    obtain ⟨r, hr1, _, h6⟩ := validated_dataset (rs := [(c, bytes)]) (by simpa using hr) hd (by simpa using hwf) (by simpa using ht) hdl
    rw [List.mem_singleton] at hr1
    subst hr1
    exact h6 cs h3 h4)
  rw [h2] at h5
  refine ⟨fun buf hb => ?_, h5.2.1, h5.2.2⟩
  have := h5.1 buf hb
  subst this
  exact ⟨rfl, fun d res h => (Nfd.C88_parse d buf res).2 h⟩

/-- Of several responses with different versions, all of which the validator accepts, a completed fetch delivers one, not a
mixture, if no Interest is answered after it was cancelled. -/
theorem C139_versions_partial (p : Segmenter.Params) (num : List Comp → Nat) (rs : List (Ctx × Bytes))
    (hr : ∀ r ∈ rs, Response p.settings r.1 r.2) (hdist : ∀ r ∈ rs, ∀ r' ∈ rs, num r.1.pfx = num r'.1.pfx → r = r')
    (hd : if p.settings.encodeMarker then p.settings.decodeMarker = true else p.settings.decodeTyped = true)
    (hwf : ∀ r ∈ rs, ∀ f ∈ packets p r.1, DataWF f) (cfg : Fetch.Cfg) (hc : cfg.late = false) (evs : List Ev)
    (ht : Trusted p.settings num cfg (rs.flatMap fun r => packets p r.1) evs)
    (hl : (run p.settings num cfg evs).log.length < 2 ^ 63) :
    (∀ buf, Fetch.Obs.complete buf ∈ (run p.settings num cfg evs).log → ∃ r ∈ rs, buf = r.2) ∧
    (Fetch.Spec.delivered (run p.settings num cfg evs).log ≠ [] →
      ∃ r ∈ rs, (Fetch.Spec.delivered (run p.settings num cfg evs).log).flatten <+: r.2 ∧
      (Fetch.Obs.inOrderComplete ∈ (run p.settings num cfg evs).log →
        (Fetch.Spec.delivered (run p.settings num cfg evs).log).flatten = r.2)) := by
  have hok : Fetch.Spec.Ok (run p.settings num cfg evs).log := Fetch.C39_signals cfg _ (valid p.settings num evs) hl
  have hone : ∀ x y, Fetch.Obs.validated x ∈ (run p.settings num cfg evs).log → Fetch.Obs.validated y ∈ (run p.settings num cfg evs).log → x.obj = y.obj :=
    fun x y => Fetch.C39_object_partial cfg _ (valid p.settings num evs) hc x y
  have hval := fun d hdl => validated_dataset (d := d) hr hd hwf ht hdl
  generalize (run p.settings num cfg evs).log = log at *
  have key : ∀ d0, Fetch.Obs.validated d0 ∈ log → ∃ r ∈ rs, ∃ cs : List Bytes, cs.flatten = r.2 ∧
      (∀ buf, Fetch.Obs.complete buf ∈ log → buf = cs.flatten) ∧ (Fetch.Spec.delivered log).flatten <+: cs.flatten ∧
      (Fetch.Obs.inOrderComplete ∈ log → (Fetch.Spec.delivered log).flatten = cs.flatten) := by
    intro d0 h0
    obtain ⟨r, hr1, hr2, _⟩ := hval d0 h0
    obtain ⟨cs, h1, h2, h3, h4⟩ := response_cut (hr r hr1)
    refine ⟨r, hr1, cs, h2, intact_core hok cs h1 ?_⟩
    intro d hdl
    obtain ⟨r', hr1', hr2', h6⟩ := hval d hdl
    have := hdist r hr1 r' hr1' (by rw [← hr2, ← hr2', hone d0 d h0 hdl])
    subst this
    exact h6 cs h3 h4
  constructor
  · intro buf hb
    obtain ⟨pre, post, e⟩ := List.append_of_mem hb
    obtain ⟨_, f, l, h1, _⟩ := hok pre _ post e
    unfold Fetch.Spec.lastFinal at h1
    obtain ⟨o, ho, hof⟩ := List.mem_filterMap.1 (List.mem_of_getLast? h1)
    cases o with
    | validated d =>
      obtain ⟨r, hr1, cs, h2, h3, _⟩ := key d (by rw [e]; exact List.mem_append_left _ ho)
      exact ⟨r, hr1, by rw [h3 buf hb, h2]⟩
    | _ => simp [Fetch.Spec.finalOf] at hof
  · intro hne
    obtain ⟨c, l, hcl⟩ := List.exists_cons_of_ne_nil hne
    obtain ⟨d, hd1, _⟩ := Fetch.delivered_hasSeg hok 0 c (by rw [hcl]; rfl)
    obtain ⟨r, hr1, cs, h2, _, h3⟩ := key d hd1
    rw [h2] at h3
    exact ⟨r, hr1, h3⟩

theorem to_none {st : Settings} {k : Conv} {c : Comp} (h : k.is st c = false) : k.to st c = none := by
  unfold Conv.is at h
  unfold Conv.to
  simp only [Bool.or_eq_false_iff, Bool.and_eq_false_iff, decide_eq_false_iff_not] at h
  split
  · rename_i h1
    split
    · rename_i h2; rcases h.1 with (h | h) | h
      · simp [h1.1] at h
      · exact absurd h1.2 h
      · rw [h2] at h; cases h
    · rfl
  · split
    · rename_i h1
      split
      · rename_i h2; rcases h.2 with (h | h) | h
        · simp [h1.1] at h
        · exact absurd h1.2 h
        · rw [h2] at h; cases h
      · rfl
    · rfl

/-- If the handler rejects the request, the dispatcher sends one packet, and a consumer whose request it answers is told of an error
of the server at once. -/
theorem C139_rejected (p : Segmenter.Params) (num : List Comp → Nat) (interest : List Comp) (v : Nat) (c0 : Ctx) (ops : List CtxOp)
    (h0 : Ctx.make p.settings interest v = some c0) (hr : Rejected (ops.zip (Ctx.run p.settings ops c0).1)) :
    ∃ x, (Ctx.run p.settings ops c0).2.out.flatMap (sendOne p.settings interest) = [.put x] ∧
      ∀ f wire, sendData p x = some f → DataWF f → f.encode = some wire → ∀ cfg verdict w a b,
        (run p.settings num cfg [.data 0 wire verdict w a b]).log = [.error 2] ∧ Nfd.codeOf 2 = some 500 := by
  obtain ⟨code, _, h1⟩ := C64_rejected p.settings interest v c0 ops h0 _ rfl hr
  refine ⟨⟨interest, .resp ⟨code, [], none⟩, true, none⟩, by rw [h1]; rfl, ?_⟩
  intro f wire hf hwf he cfg verdict w a b
  refine ⟨?_, rfl⟩
  obtain ⟨l, hl, hs⟩ := (C64_make p.settings interest v).mp (by rw [h0]; rfl)
  obtain ⟨g1, _, _, _⟩ := sendData_fields hf
  obtain ⟨w', b', e1, e2, e3, _⟩ := C23_roundtrip f hwf
  rw [he, Option.some.injEq] at e1
  subst e1
  have hrc : ∃ d, receive p.settings num wire = some d ∧ d.seg = none := by
    unfold receive
    rw [e2]
    simp only [e3, Option.bind_some, view, g1, hl, Option.map_some, Option.some.injEq, exists_eq_left']
    exact to_none hs
  obtain ⟨d, hd1, hd2⟩ := hrc
  simp only [run, List.filterMap_cons, List.filterMap_nil, Ev.toFetch, hd1, Option.map_some]
  simp [Fetch.run, Fetch.step, Fetch.onData, Fetch.start, Fetch.send, Fetch.answers, hd2, Fetch.error, Fetch.stop, Fetch.cancel]

/-! Witnesses: a dataset of three octets, in two versions -/

def exCtx (version : Nat) (ops : List CtxOp) : Ctx :=
  (Ctx.run exParams.settings ops { interest := [⟨8, [65]⟩], pfx := [⟨8, [65]⟩, ⟨54, [UInt8.ofNat version]⟩] }).2

theorem ex_response : Response exParams.settings (exCtx 5 [.append [1, 2], .append [3], .finish]) [1, 2, 3] :=
  ⟨[⟨8, [65]⟩], 5, _, [.append [1, 2], .append [3], .finish], by decide, rfl, List.mem_of_getElem? (i := 2) rfl, by decide, by decide⟩

theorem ex_response' : Response exParams.settings (exCtx 6 [.append [4], .finish]) [4] :=
  ⟨[⟨8, [65]⟩], 6, _, [.append [4], .finish], by decide, rfl, List.mem_of_getElem? (i := 1) rfl, by decide, by decide⟩

def exSegment (version : Nat) (c : Bytes) : DFields :=
  ⟨[⟨8, [65]⟩, ⟨54, [UInt8.ofNat version]⟩, ⟨50, [0]⟩], ⟨0, 1000, some ⟨50, [0]⟩, []⟩, some (binaryBlock 21 c), ⟨some 0, none, []⟩, some (binaryBlock 23 [7])⟩

theorem ex_packets : packets exParams (exCtx 5 [.append [1, 2], .append [3], .finish]) = [exSegment 5 [1, 2, 3]] ∧
    packets exParams (exCtx 6 [.append [4], .finish]) = [exSegment 6 [4]] := by decide

theorem exSegment_wf : ∀ f ∈ [exSegment 5 [1, 2, 3], exSegment 6 [4]], DataWF f := by
  have hsig : SigWF ⟨some 0, none, []⟩ := sampleData_wf.sigInfo
  intro f hf
  simp only [List.mem_cons, List.not_mem_nil, or_false] at hf
  rcases hf with rfl | rfl
  all_goals
    refine ⟨?_, ⟨by decide, by decide, ?_, ?_, by decide⟩, ?_, hsig, ⟨_, rfl, binaryBlock_wf (by decide) (by decide) (by decide), rfl⟩, ?_⟩
    · unfold Ndn.Packet.Spec.NameWF; decide
    · intro c hc
      simp only [exSegment, Option.some.injEq] at hc; subst hc
      unfold Ndn.Name.Spec.ValidComp; decide
    · intro b hb; simp [exSegment] at hb
    · intro c hc
      simp only [exSegment, Option.some.injEq] at hc; subst hc
      exact ⟨binaryBlock_wf (by decide) (by decide) (by decide), rfl⟩
    · intro w hw
      have h1 : ((exSegment 5 [1, 2, 3]).encode.map List.length) = some 37 := by decide
      have h2 : ((exSegment 6 [4]).encode.map List.length) = some 35 := by decide
      rw [hw] at *
      simp at h1 h2
      omega

def exOctets (version : Nat) (c : Bytes) : Bytes := ((exSegment version c).encode).getD []

/-- Numbers the two prefixes differently. -/
def exNum' (n : List Comp) : Nat := (n.map fun c => (c.value.map UInt8.toNat).sum).sum

/-- The first Interest times out, the second is answered. -/
def exFetch (version : Nat) (c : Bytes) : List Ev := [.timeout 0 1 false, .data 1 (exOctets version c) (some true) 2 false false]

theorem exFetch_trusted (cfg : Fetch.Cfg) (version : Nat) (c : Bytes) (segs : List DFields) (h : Published segs (exOctets version c)) :
    Trusted exParams.settings exNum' cfg segs (exFetch version c) := by
  constructor
  · intro i wire w a b h1
    simp only [exFetch, List.mem_cons, List.not_mem_nil, or_false, Ev.data.injEq, reduceCtorEq, false_or] at h1
    rw [h1.2.1]; exact h
  · intro e1 vid w a e2 he
    have : Ev.result vid true w a ∈ exFetch version c := by rw [he]; simp
    simp [exFetch] at this

theorem exFetch_log : (run exParams.settings exNum' Fetch.exCfg (exFetch 5 [1, 2, 3])).log =
    [.timedOut, .received ⟨70, some 0, some (some 0), [1, 2, 3]⟩, .validated ⟨70, some 0, some (some 0), [1, 2, 3]⟩, .complete [1, 2, 3]] ∧
    (run exParams.settings exNum' Fetch.exCfg (exFetch 6 [4])).log =
    [.timedOut, .received ⟨71, some 0, some (some 0), [4]⟩, .validated ⟨71, some 0, some (some 0), [4]⟩, .complete [4]] := by decide +kernel

example := (C139_dataset exParams exNum' _ _ ex_response rfl
  (by intro f hf; rw [ex_packets.1] at hf; exact exSegment_wf f (by simp only [List.mem_singleton] at hf; simp [hf])) Fetch.exCfg (exFetch 5 [1, 2, 3])
  (exFetch_trusted _ _ _ _ ⟨exSegment 5 [1, 2, 3], by rw [ex_packets.1]; simp, by decide⟩)
  (by rw [exFetch_log.1]; decide)).1 [1, 2, 3] (by rw [exFetch_log.1]; simp)

example := (C139_versions_partial exParams exNum' [(exCtx 5 [.append [1, 2], .append [3], .finish], [1, 2, 3]), (exCtx 6 [.append [4], .finish], [4])]
  (by simpa using ⟨ex_response, ex_response'⟩) (by decide) rfl
  (by
    intro r hr f hf
    simp only [List.mem_cons, List.not_mem_nil, or_false] at hr
    rcases hr with rfl | rfl
    · rw [ex_packets.1] at hf; exact exSegment_wf f (by simp only [List.mem_singleton] at hf; simp [hf])
    · rw [ex_packets.2] at hf; exact exSegment_wf f (by simp only [List.mem_singleton] at hf; simp [hf]))
  Fetch.exCfg rfl (exFetch 6 [4])
  (exFetch_trusted _ _ _ _ ⟨exSegment 6 [4], by simp [ex_packets.2], by decide⟩)
  (by rw [exFetch_log.2]; decide)).1 [4] (by rw [exFetch_log.2]; simp)

/-- A rejected request. -/
example : Rejected ([CtxOp.reject 404].zip (Ctx.run exParams.settings [.reject 404] { interest := [⟨8, [65]⟩], pfx := [⟨8, [65]⟩, ⟨54, [5]⟩] }).1) :=
  ⟨404, List.mem_of_getElem? (i := 0) rfl⟩

end Ndn.Flow
