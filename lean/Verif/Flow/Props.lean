import Verif.Flow.Model
import Verif.Fetch.Props
import Verif.Fetch.Lossless
import Verif.Segmenter.Props
import Verif.Packet.Props
import Verif.Replay.Props
/-
C138: an object cut into segments and fetched arrives intact.
-/
namespace Ndn.Flow
open Ndn.Packet Ndn.Name Ndn.Block Ndn.Tlv Ndn.Packet.Spec

namespace Spec

/-- The octets of one of the packets published. -/
def Published (segs : List DFields) (wire : Bytes) : Prop := ∃ f ∈ segs, f.encode = some wire

/-- The validator accepts only packets that were published, whenever it answers. -/
def Trusted (st : Settings) (num : List Comp → Nat) (cfg : Fetch.Cfg) (segs : List DFields) (evs : List Ev) : Prop :=
  (∀ i wire w a b, Ev.data i wire (some true) w a b ∈ evs → Published segs wire) ∧
  ∀ e1 vid w a e2, evs = e1 ++ .result vid true w a :: e2 →
    ∀ v ∈ (run st num cfg e1).validating, v.vid = vid → ∃ wire, Published segs wire ∧ receive st num wire = some v.data

/-- The packets published that answer an Interest. -/
def Fits (st : Settings) (num : List Comp → Nat) (segs : List DFields) (l : Fetch.Live) (wire : Bytes) : Prop :=
  Published segs wire ∧ ∃ d, receive st num wire = some d ∧ Fetch.answers d l.kind = true

/-- Nothing goes wrong: all that happens is that an Interest that was sent is answered by a packet published, which the
validator accepts at once, and handlers leave the fetcher alone. -/
def Lossless (st : Settings) (num : List Comp → Nat) (cfg : Fetch.Cfg) (segs : List DFields) (evs : List Ev) : Prop :=
  ∀ e1 e e2, evs = e1 ++ e :: e2 → ∃ l ∈ (run st num cfg e1).live, ∃ wire w, e = .data l.iid wire (some true) w false false ∧
    Fits st num segs l wire

end Spec
open Spec

theorem conv_lt {st : Settings} {k : Conv} {c : Comp} {n : Nat} (h : k.to st c = some n) : n < 2 ^ 64 := by
  have rd : ∀ v : Bytes, readNniValue v = some n → n < 2 ^ 64 := by
    intro v h
    cases readNniValue_iff.mp h with
    | one a => have := a.toNat_lt; omega
    | two a b => have := a.toNat_lt; have := b.toNat_lt; omega
    | four a b c d => have := a.toNat_lt; have := b.toNat_lt; have := c.toNat_lt; have := d.toNat_lt; omega
    | eight a b c d e f g x =>
      have := a.toNat_lt; have := b.toNat_lt; have := c.toNat_lt; have := d.toNat_lt
      have := e.toNat_lt; have := f.toNat_lt; have := g.toNat_lt; have := x.toNat_lt
      omega
  unfold Conv.to at h
  split at h
  · split at h
    · exact rd _ h
    · simp at h
  · split at h
    · split at h
      · exact rd _ h
      · simp at h
    · simp at h

/-- Segment `i` is received as such. -/
theorem receive_segment (p : Segmenter.Params) (num : List Comp → Nat) (buffer : Bytes) (name : List Comp) (m : Nat) (fr : Int) (ct : Nat)
    (segs : List DFields) (h : Segmenter.segment p buffer name m fr ct = some segs) (hlen : segs.length ≤ 2 ^ 64)
    (hd : if p.settings.encodeMarker then p.settings.decodeMarker = true else p.settings.decodeTyped = true)
    (hwf : ∀ f ∈ segs, DataWF f) (i : Nat) (f : DFields) (hi : segs[i]? = some f) :
    ∃ wire, f.encode = some wire ∧ receive p.settings num wire =
      some ⟨num name, some i, some (some (segs.length - 1)), Segmenter.Spec.chunk buffer m i⟩ := by
  obtain ⟨w, b, h1, h2, h3, _⟩ := C23_roundtrip f (hwf f (List.mem_of_getElem? hi))
  obtain ⟨⟨c, hc1, hc2⟩, ⟨c', hc3, hc4⟩⟩ := Segmenter.C38_numbers p buffer name m fr ct segs h hlen hd i f hi
  obtain ⟨_, h5⟩ := Segmenter.C38_segments p buffer name m fr ct segs h
  obtain ⟨si, sv, _, h6⟩ := h5 i f hi
  have hcont : f.content = some (binaryBlock 21 (Segmenter.Spec.chunk buffer m i)) := by rw [h6]; rfl
  refine ⟨w, h1, ?_⟩
  unfold receive
  rw [h2]
  simp only [h3, Option.bind_some, view, hc1, hc3, hcont, List.getLast?_append, List.getLast?_singleton, Option.some_or, Option.map_some, hc2, hc4,
    List.dropLast_concat, Option.getD_some]
  rfl

/-- A packet published is received as the segment it is. -/
theorem receive_published (p : Segmenter.Params) (num : List Comp → Nat) (buffer : Bytes) (name : List Comp) (m : Nat) (fr : Int) (ct : Nat)
    (segs : List DFields) (h : Segmenter.segment p buffer name m fr ct = some segs) (hlen : segs.length ≤ 2 ^ 64)
    (hd : if p.settings.encodeMarker then p.settings.decodeMarker = true else p.settings.decodeTyped = true)
    (hwf : ∀ f ∈ segs, DataWF f) (wire : Bytes) (hp : Published segs wire) :
    ∃ i < segs.length, receive p.settings num wire =
      some ⟨num name, some i, some (some (segs.length - 1)), Segmenter.Spec.chunk buffer m i⟩ := by
  obtain ⟨f, hf, he⟩ := hp
  obtain ⟨i, hi⟩ := List.getElem?_of_mem hf
  obtain ⟨w, h1, h2⟩ := receive_segment p num buffer name m fr ct segs h hlen hd hwf i f hi
  rw [he] at h1
  cases h1
  exact ⟨i, (List.getElem?_eq_some_iff.mp hi).1, h2⟩

theorem toFetch_result {st : Settings} {num : List Comp → Nat} {e : Ev} {vid w : Nat} {ok a : Bool} (h : e.toFetch st num = some (.result vid ok w a)) :
    e = .result vid ok w a := by
  cases e with
  | data i wire v w a b =>
    simp only [Ev.toFetch, Option.map_eq_some_iff] at h
    obtain ⟨_, _, h⟩ := h
    cases h
  | result v ok w a => simp only [Ev.toFetch, Option.some.injEq, Fetch.Ev.result.injEq] at h; simp [h]
  | _ => simp [Ev.toFetch] at h

theorem toFetch_data {st : Settings} {num : List Comp → Nat} {e : Ev} {i : Nat} {d : Fetch.Data} {v : Option Bool} {w : Nat} {a b : Bool}
    (h : e.toFetch st num = some (.data i d v w a b)) : ∃ wire, e = .data i wire v w a b ∧ receive st num wire = some d := by
  cases e with
  | data i wire v w a b =>
    simp only [Ev.toFetch, Option.map_eq_some_iff] at h
    obtain ⟨x, hx, h⟩ := h
    cases h
    exact ⟨wire, rfl, hx⟩
  | _ => simp [Ev.toFetch] at h

theorem receive_lt {st : Settings} {num : List Comp → Nat} {wire : Bytes} {d : Fetch.Data} (h : receive st num wire = some d) :
    (∀ k, d.seg = some k → k < 2 ^ 64) ∧ (∀ f, d.final = some (some f) → f < 2 ^ 64) := by
  unfold receive at h
  split at h
  · simp only [Option.bind_eq_some_iff, view, Option.map_eq_some_iff] at h
    obtain ⟨x, _, c, _, rfl⟩ := h
    refine ⟨fun k hk => conv_lt hk, fun f hf => ?_⟩
    simp only [Option.map_eq_some_iff] at hf
    obtain ⟨c, _, hc⟩ := hf
    exact conv_lt hc
  · simp at h

theorem valid (st : Settings) (num : List Comp → Nat) (evs : List Ev) : Fetch.Spec.ValidEvs (evs.filterMap (Ev.toFetch st num)) := by
  intro i d v w a b h
  obtain ⟨e, _, he⟩ := List.mem_filterMap.mp h
  obtain ⟨wire, _, hr⟩ := toFetch_data he
  exact receive_lt hr

theorem accepted {st : Settings} {num : List Comp → Nat} {cfg : Fetch.Cfg} {segs : List DFields} {evs : List Ev} (ht : Trusted st num cfg segs evs)
    {d : Fetch.Data} (h : Fetch.Obs.validated d ∈ (run st num cfg evs).log) : ∃ wire, Published segs wire ∧ receive st num wire = some d := by
  rcases Fetch.C39_accepted cfg _ d h with ⟨i, w, a, b, hm⟩ | ⟨e1, vid, node, w, a, e2, he, hv⟩
  · obtain ⟨e, hev, he⟩ := List.mem_filterMap.mp hm
    obtain ⟨wire, rfl, hr⟩ := toFetch_data he
    exact ⟨wire, ht.1 _ _ _ _ _ hev, hr⟩
  · obtain ⟨l1, l2, rfl, h1, h2⟩ := List.filterMap_eq_append_iff.mp he
    obtain ⟨l3, x, l4, rfl, h3, h4, h5⟩ := List.filterMap_eq_cons_iff.mp h2
    have := toFetch_result h4
    subst this
    refine ht.2 (l1 ++ l3) vid w a l4 (by simp) ⟨vid, node, d⟩ ?_ rfl
    unfold run
    rw [List.filterMap_append, h1, List.filterMap_eq_nil_iff.mpr h3, List.append_nil]
    exact hv

/-- If every packet validated is a piece of the object and no other last piece is announced, what the fetcher delivers is
the object. -/
theorem intact_core {log : List Fetch.Obs} (hok : Fetch.Spec.Ok log) (cs : List Bytes) (hne : cs ≠ [])
    (hval : ∀ d, Fetch.Obs.validated d ∈ log → (∃ i, d.seg = some i ∧ cs[i]? = some d.content) ∧ ∀ f, d.final = some (some f) → f = cs.length - 1) :
    (∀ buf, Fetch.Obs.complete buf ∈ log → buf = cs.flatten) ∧
    (Fetch.Spec.delivered log).flatten <+: cs.flatten ∧
    (Fetch.Obs.inOrderComplete ∈ log → (Fetch.Spec.delivered log).flatten = cs.flatten) := by
  have hc1 : 1 ≤ cs.length := List.length_pos_iff.mpr hne
  have hseg : ∀ pre : List Fetch.Obs, (∀ o ∈ pre, o ∈ log) → ∀ i c, Fetch.Spec.HasSeg pre i c → cs[i]? = some c := by
    rintro pre hsub i c ⟨d, hd1, hd2, hd3⟩
    obtain ⟨⟨j, hj, hc⟩, _⟩ := hval d (hsub _ hd1)
    rw [hd2, Option.some.injEq] at hj
    subst hj
    rw [hc, hd3]
  have hpre : ∀ l : List Bytes, (∀ (i : Nat) c, l[i]? = some c → cs[i]? = some c) → l.length ≤ cs.length ∧ l = cs.take l.length := by
    intro l hl
    have hle : l.length ≤ cs.length := by
      apply Nat.le_of_not_lt
      intro hlt
      have := hl _ _ (List.getElem?_eq_getElem hlt)
      rw [List.getElem?_eq_none (Nat.le_refl _)] at this
      simp at this
    refine ⟨hle, ?_⟩
    apply List.ext_getElem?
    intro i
    by_cases hi : i < l.length
    · rw [List.getElem?_take_of_lt hi, List.getElem?_eq_getElem hi]
      exact (hl i _ (List.getElem?_eq_getElem hi)).symm
    · rw [List.getElem?_eq_none (by omega), List.getElem?_eq_none (by rw [List.length_take]; omega)]
  have hfin : ∀ pre : List Fetch.Obs, (∀ o ∈ pre, o ∈ log) → ∀ f, Fetch.Spec.lastFinal pre = some f → f = cs.length - 1 := by
    intro pre hsub f hf
    unfold Fetch.Spec.lastFinal at hf
    obtain ⟨o, ho, hof⟩ := List.mem_filterMap.1 (List.mem_of_getLast? hf)
    cases o with
    | validated d =>
      refine (hval d (hsub _ ho)).2 f ?_
      simp only [Fetch.Spec.finalOf] at hof
      cases hd : d.final with
      | none => rw [hd] at hof; simp at hof
      | some x => rw [hd] at hof; simp at hof; rw [hof]
    | _ => simp [Fetch.Spec.finalOf] at hof
  obtain ⟨h3, h4⟩ := hpre (Fetch.Spec.delivered log) (fun i c hi => hseg log (fun _ h => h) i c (Fetch.delivered_hasSeg hok i c hi))
  refine ⟨?_, ?_, ?_⟩
  · intro buf hb
    obtain ⟨pre, post, e⟩ := List.append_of_mem hb
    obtain ⟨_, f, l, h1, h2, h3, rfl⟩ := hok pre _ post e
    have hsub : ∀ o ∈ pre, o ∈ log := by intro o ho; rw [e]; simp [ho]
    have hf := hfin pre hsub f h1
    obtain ⟨_, h5⟩ := hpre l (fun i c hi => hseg pre hsub i c (h3 i c hi))
    rw [h5, h2, hf, Nat.sub_add_cancel hc1, List.take_length]
  · rw [h4]
    conv => rhs; rw [← List.take_append_drop (Fetch.Spec.delivered log).length cs, List.flatten_append]
    exact List.prefix_append _ _
  · intro hb
    obtain ⟨pre, post, e⟩ := List.append_of_mem hb
    obtain ⟨_, f, h1, h2⟩ := hok pre _ post e
    have hsub : ∀ o ∈ pre, o ∈ log := by intro o ho; rw [e]; simp [ho]
    have hf := hfin pre hsub f h1
    have hge : (Fetch.Spec.delivered pre).length ≤ (Fetch.Spec.delivered log).length := by
      rw [e]
      unfold Fetch.Spec.delivered
      rw [List.filterMap_append]
      simp
    have : (Fetch.Spec.delivered log).length = cs.length := by omega
    rw [h4, this, List.take_length]

/-- An object cut into segments by the segmenter, put on the wire and fetched by the segment fetcher arrives
intact, if the validator accepts only the packets published: whatever octets arrive in whatever order and
however often, whatever is lost, nacked, late or rejected, a completed fetch delivers the octets of the object; in
the in-order mode what was delivered so far is always a prefix of the object, and all of it upon completion. -/
theorem C138_intact (p : Segmenter.Params) (num : List Comp → Nat) (buffer : Bytes) (name : List Comp) (m : Nat) (fr : Int) (ct : Nat)
    (segs : List DFields) (h : Segmenter.segment p buffer name m fr ct = some segs) (hlen : segs.length ≤ 2 ^ 64)
    (hd : if p.settings.encodeMarker then p.settings.decodeMarker = true else p.settings.decodeTyped = true)
    (hwf : ∀ f ∈ segs, DataWF f) (cfg : Fetch.Cfg) (evs : List Ev) (ht : Trusted p.settings num cfg segs evs)
    (hl : (run p.settings num cfg evs).log.length < 2 ^ 63) :
    (∀ buf, Fetch.Obs.complete buf ∈ (run p.settings num cfg evs).log → buf = buffer) ∧
    (Fetch.Spec.delivered (run p.settings num cfg evs).log).flatten <+: buffer ∧
    (Fetch.Obs.inOrderComplete ∈ (run p.settings num cfg evs).log →
      (Fetch.Spec.delivered (run p.settings num cfg evs).log).flatten = buffer) := by
  have hok : Fetch.Spec.Ok (run p.settings num cfg evs).log := Fetch.C39_signals cfg _ (valid p.settings num evs) hl
  have hval : ∀ d, Fetch.Obs.validated d ∈ (run p.settings num cfg evs).log →
      ∃ i < segs.length, d = ⟨num name, some i, some (some (segs.length - 1)), Segmenter.Spec.chunk buffer m i⟩ := by
    intro d hdl
    obtain ⟨wire, hp, hr⟩ := accepted ht hdl
    obtain ⟨i, hi, hr'⟩ := receive_published p num buffer name m fr ct segs h hlen hd hwf wire hp
    rw [hr] at hr'
    exact ⟨i, hi, Option.some.inj hr'⟩
  have hm : 0 < m := by
    rcases Nat.eq_zero_or_pos m with h0 | h0
    · subst h0; simp [Segmenter.segment] at h
    · exact h0
  obtain ⟨hc1, _, _, _, hc2⟩ := Segmenter.C38_chunks buffer m hm
  have hcount : segs.length = Segmenter.Spec.count buffer.length m := (Segmenter.C38_segments p buffer name m fr ct segs h).1
  rw [← hcount] at hc1 hc2
  have := intact_core hok ((List.range segs.length).map (Segmenter.Spec.chunk buffer m)) (by
      intro hnil
      have := congrArg List.length hnil
      simp at this
      rw [this] at hc1
      simp at hc1)
    (by
      intro d hd
      obtain ⟨i, hi, rfl⟩ := hval d hd
      refine ⟨⟨i, rfl, ?_⟩, fun f hf => ?_⟩
      · rw [List.getElem?_map, List.getElem?_range hi]; rfl
      · simp only [Option.some.injEq] at hf
        simp [hf])
  rw [hc2] at this
  exact this

/-- The state of a lossless fetch after `k` answers. -/
structure J (num : List Comp → Nat) (name : List Comp) (n k : Nat) (s : Fetch.St) : Prop where
  good : Fetch.Good s
  goodL : Fetch.GoodL s
  defd : Fetch.Def s
  going : Fetch.Going (n - 1) s
  state : (s.stopped = false ∧ k < n ∧ Fetch.Q s ∧ s.received.length = k ∧ s.log.length = 2 * k ∧
      (s.received ≠ [] → s.nSeg = n ∧ s.versioned = num name)) ∨
    (s.stopped = true ∧ k = n ∧ s.pending = [] ∧ s.log.length = 2 * k + 1 ∧ ∃ buf, s.log.getLast? = some (.complete buf))

theorem start_J (num : List Comp → Nat) (name : List Comp) (n : Nat) (hn : 1 ≤ n) (cfg : Fetch.Cfg) (hc : cfg.late = false) (hb : cfg.baseSeg = none)
    (hi : cfg.inOrder = false) : J num name n 0 (Fetch.start cfg) :=
  ⟨Fetch.start_good cfg, Fetch.start_L cfg hc, Fetch.start_def cfg hb, Fetch.start_going _ cfg hi,
    Or.inl ⟨rfl, hn, Fetch.start_Q cfg hc, rfl, rfl, fun h => absurd rfl h⟩⟩

theorem step_J {num : List Comp → Nat} {name : List Comp} {n k : Nat} {s : Fetch.St} (hN : n < 2 ^ 63) (h : J num name n k s) {l : Fetch.Live} (hl : l ∈ s.live)
    {d : Fetch.Data} {w i : Nat} (hans : Fetch.answers d l.kind = true) (h1 : d.obj = num name) (h2 : d.seg = some i) (h3 : i < n) (h4 : d.final = some (some (n - 1))) :
    J num name n (k + 1) (Fetch.step s (.data l.iid d (some true) w false false)) := by
  have hval : Fetch.Spec.ValidEvs [.data l.iid d (some true) w false false] := by
    intro i' d' v w' a b hm
    simp only [List.mem_singleton, Fetch.Ev.data.injEq] at hm
    obtain ⟨_, rfl, _⟩ := hm
    rw [h2, h4]
    simp only [Option.some.injEq]
    exact ⟨fun x hx => by omega, fun x hx => by omega⟩
  have hcalm : Fetch.Spec.Calm (.data l.iid d (some true) w false false) := ⟨by simp, rfl, rfl⟩
  have hcons : Fetch.Spec.Consistent (n - 1) (.data l.iid d (some true) w false false) := by
    refine ⟨fun x hx => ?_, fun x hx => ?_⟩
    · rw [h2, Option.some.injEq] at hx; omega
    · rw [h4] at hx; simp only [Option.some.injEq] at hx; omega
  have g1 := Fetch.step_good h.good hval
  have g2 := Fetch.step_L h.good h.goodL hval
  have g3 := Fetch.step_def h.good h.goodL h.defd hcalm
  have g4 := Fetch.step_going (N := n - 1) (by omega) h.good h.goodL h.defd h.going hcalm hcons
  refine ⟨g1, g2, g3, g4, ?_⟩
  rcases h.state with ⟨s1, s2, s3, s4, s5, _⟩ | ⟨_, _, s3, _⟩
  · have := Fetch.onData_Q (N := n - 1) (w := w) (by omega) h.good h.goodL h.defd h.going s3 s1 hl hans h2 (by omega) h4
    rw [Nat.sub_add_cancel (by omega), s4] at this
    rcases this with ⟨t1, t2, t3, buf, t4⟩ | ⟨t1, t2, t3, t4, t5⟩
    · refine Or.inr ⟨t1, t2, t3, ?_, buf, ?_⟩
      · simp only [Fetch.step, t4, List.length_append, List.length_cons, List.length_nil]; omega
      · simp only [Fetch.step, t4]; simp
    · refine Or.inl ⟨t1, t2, t3, t4, ?_, fun _ => ⟨?_, ?_⟩⟩
      · simp only [Fetch.step, t5, List.length_append, List.length_cons, List.length_nil]; omega
      · have := g1.2.1.nSeg
        simp only [Fetch.step] at this ⊢
        rw [this, t5, show s.log ++ [Fetch.Obs.received d, .validated d] = (s.log ++ [.received d]) ++ [.validated d] by simp,
          Fetch.lastFinal_snoc_some (f := n - 1) (by simp [Fetch.Spec.finalOf, h4])]
        simp only
        rw [Nat.sub_add_cancel (by omega)]
        exact Nat.mod_eq_of_lt (by omega)
      · rcases g2.2.2 with hs | ho
        · simp only [Fetch.step] at hs; rw [t1] at hs; simp at hs
        · rw [← h1]
          exact (ho d (by simp only [Fetch.step, t5]; simp)).1.symm
  · obtain ⟨p, hp, _⟩ := h.goodL.1.live l hl
    rw [s3] at hp; simp at hp

theorem lossless_snoc {st : Settings} {num : List Comp → Nat} {cfg : Fetch.Cfg} {segs : List DFields} {evs : List Ev} {e : Ev}
    (h : Lossless st num cfg segs (evs ++ [e])) : Lossless st num cfg segs evs := by
  intro e1 x e2 he
  exact h e1 x (e2 ++ [e]) (by rw [he]; simp)

theorem run_snoc (st : Settings) (num : List Comp → Nat) (cfg : Fetch.Cfg) (evs : List Ev) (e : Ev) :
    run st num cfg (evs ++ [e]) = match e.toFetch st num with | none => run st num cfg evs | some f => Fetch.step (run st num cfg evs) f := by
  unfold run Fetch.run
  rw [List.filterMap_append]
  cases h : e.toFetch st num with
  | none => simp [h]
  | some f => simp [h]

/-- In a lossless fetch of an object of `n` segments exactly `n` answers are needed, whatever the order of the answers and
the windows: until then an Interest waits in the face, and each one that waits can be answered by one of the packets published; with the
last answer the fetch completes and delivers the object.
Not covered: the in-order mode, and Interests answered after they were cancelled. -/
theorem C138_lossless_partial (p : Segmenter.Params) (num : List Comp → Nat) (buffer : Bytes) (name : List Comp) (m : Nat) (fr : Int) (ct : Nat)
    (segs : List DFields) (h : Segmenter.segment p buffer name m fr ct = some segs) (hlen : segs.length < 2 ^ 62)
    (hd : if p.settings.encodeMarker then p.settings.decodeMarker = true else p.settings.decodeTyped = true)
    (hwf : ∀ f ∈ segs, DataWF f) (cfg : Fetch.Cfg) (hlate : cfg.late = false) (hbase : cfg.baseSeg = none) (hmode : cfg.inOrder = false)
    (evs : List Ev) (hloss : Lossless p.settings num cfg segs evs) :
    evs.length ≤ segs.length ∧
    (evs.length < segs.length → (run p.settings num cfg evs).live ≠ [] ∧
      ∀ l ∈ (run p.settings num cfg evs).live, ∃ wire, Fits p.settings num segs l wire) ∧
    (evs.length = segs.length → (run p.settings num cfg evs).live = [] ∧
      (run p.settings num cfg evs).log.getLast? = some (.complete buffer)) := by
  have hm : 0 < m := by
    rcases Nat.eq_zero_or_pos m with h0 | h0
    · subst h0; simp [Segmenter.segment] at h
    · exact h0
  have hn1 : 1 ≤ segs.length := by
    rw [(Segmenter.C38_segments p buffer name m fr ct segs h).1]
    exact (Segmenter.C38_chunks buffer m hm).1
  have hJ : ∀ evs, Lossless p.settings num cfg segs evs → J num name segs.length evs.length (run p.settings num cfg evs) := by
    intro evs
    induction evs using Ndn.Replay.snocInd with
    | nil => intro _; exact start_J num name _ hn1 cfg hlate hbase hmode
    | snoc evs e ih =>
      intro hl
      obtain ⟨l, hlm, wire, w, rfl, hp, d, hr, ha⟩ := hl evs e [] rfl
      obtain ⟨i, hi, hr'⟩ := receive_published p num buffer name m fr ct segs h (by omega) hd hwf wire hp
      rw [hr] at hr'
      have hr' := Option.some.inj hr'
      rw [run_snoc]
      simp only [Ev.toFetch, hr, Option.map_some, List.length_append, List.length_singleton]
      exact step_J (by omega) (ih (lossless_snoc hl)) hlm ha (by rw [hr']) (by rw [hr']) hi (by rw [hr'])
  have hj := hJ evs hloss
  have htr : Trusted p.settings num cfg segs evs := by
    constructor
    · intro i wire w a b hm
      obtain ⟨e1, e2, rfl⟩ := List.append_of_mem hm
      obtain ⟨l, _, wire', w', he, hp, _⟩ := hloss e1 _ e2 rfl
      injection he with _ he
      subst he
      exact hp
    · intro e1 vid w a e2 he
      obtain ⟨l, _, wire', w', he, _⟩ := hloss e1 _ e2 he
      cases he
  rcases hj.state with ⟨s1, s2, s3, s4, s5, s6⟩ | ⟨s1, s2, s3, s4, buf, s5⟩
  · refine ⟨by omega, fun _ => ⟨?_, ?_⟩, fun he => by omega⟩
    · rcases hj.going.2 with hs | ⟨_, q, hq, _⟩
      · rw [s1] at hs; simp at hs
      · exact List.ne_nil_of_mem (s3.cover q hq)
    · intro l hl
      have hpub : ∀ i, i < segs.length → ∃ wire, Published segs wire ∧
          receive p.settings num wire = some ⟨num name, some i, some (some (segs.length - 1)), Segmenter.Spec.chunk buffer m i⟩ := by
        intro i hi
        obtain ⟨wire, h1, h2⟩ := receive_segment p num buffer name m fr ct segs h (by omega) hd hwf i _ (List.getElem?_eq_getElem hi)
        exact ⟨wire, ⟨_, List.getElem_mem hi, h1⟩, h2⟩
      obtain ⟨q, hq, hqi, hqk⟩ := hj.goodL.1.live l hl
      have hk := hj.goodL.1.kind q hq
      by_cases hr : (run p.settings num cfg evs).received = []
      · rw [if_pos hr] at hk
        obtain ⟨wire, hw, hrw⟩ := hpub 0 hn1
        exact ⟨wire, hw, _, hrw, by rw [← hqk, hk]; rfl⟩
      · rw [if_neg hr] at hk
        obtain ⟨t1, t2⟩ := s6 hr
        have hlt : q.seg < segs.length := by
          rcases hj.going.2 with hs | ⟨hP, _⟩
          · rw [s1] at hs; simp at hs
          · have := hP.pendLt q hq (by omega)
            omega
        obtain ⟨wire, hw, hrw⟩ := hpub q.seg hlt
        exact ⟨wire, hw, _, hrw, by rw [← hqk, hk, t2]; simp [Fetch.answers]⟩
  · refine ⟨by omega, fun hlt => by omega, fun _ => ⟨?_, ?_⟩⟩
    · cases hlv : (run p.settings num cfg evs).live with
      | nil => rfl
      | cons l ls =>
        obtain ⟨q, hq, _⟩ := hj.goodL.1.live l (by rw [hlv]; simp)
        rw [s3] at hq; simp at hq
    · rw [s5, (C138_intact p num buffer name m fr ct segs h (by omega) hd hwf cfg evs htr (by omega)).1 buf (List.mem_of_getLast? s5)]

/-! Witnesses -/

/-- The key chain signs with the digest. -/
def exParams : Segmenter.Params := ⟨⟨false, false, true⟩, fun _ => some (⟨some 0, none, []⟩, [7])⟩

def exPacket (i : Nat) (c : Bytes) : DFields :=
  ⟨[⟨8, [65]⟩, ⟨50, [UInt8.ofNat i]⟩], ⟨0, 1000, some ⟨50, [1]⟩, []⟩, some (binaryBlock 21 c), ⟨some 0, none, []⟩, some (binaryBlock 23 [7])⟩

/-- Three octets in two segments. -/
theorem ex_segment : Segmenter.segment exParams [1, 2, 3] [⟨8, [65]⟩] 2 1000 0 = some [exPacket 0 [1, 2], exPacket 1 [3]] := by decide

theorem exPacket_wf : ∀ f ∈ [exPacket 0 [1, 2], exPacket 1 [3]], DataWF f := by
  have hsig : SigWF ⟨some 0, none, []⟩ := sampleData_wf.sigInfo
  intro f hf
  simp only [List.mem_cons, List.not_mem_nil, or_false] at hf
  rcases hf with rfl | rfl
  all_goals
    refine ⟨?_, ⟨by decide, by decide, ?_, ?_, by decide⟩, ?_, hsig, ⟨_, rfl, binaryBlock_wf (by decide) (by decide) (by decide), rfl⟩, ?_⟩
    · unfold Ndn.Packet.Spec.NameWF; decide
    · intro c hc
      simp only [exPacket, Option.some.injEq] at hc; subst hc
      unfold Ndn.Name.Spec.ValidComp; decide
    · intro b hb; simp [exPacket] at hb
    · intro c hc
      simp only [exPacket, Option.some.injEq] at hc; subst hc
      exact ⟨binaryBlock_wf (by decide) (by decide) (by decide), rfl⟩
    · intro w hw
      have h1 : ((exPacket 0 [1, 2]).encode.map List.length) = some 33 := by decide
      have h2 : ((exPacket 1 [3]).encode.map List.length) = some 32 := by decide
      rw [hw] at *
      simp at h1 h2
      omega

/-- The octets on the wire. -/
def exWire (i : Nat) (c : Bytes) : Bytes := ((exPacket i c).encode).getD []

def exNum : List Comp → Nat := List.length

/-- Segment 1 answers the first Interest, then segment 0 is asked for. -/
def exEvs : List Ev := [.data 0 (exWire 1 [3]) (some true) 2 false false, .data 2 (exWire 0 [1, 2]) (some true) 2 false false]

theorem ex_published : Published [exPacket 0 [1, 2], exPacket 1 [3]] (exWire 0 [1, 2]) ∧ Published [exPacket 0 [1, 2], exPacket 1 [3]] (exWire 1 [3]) :=
  ⟨⟨exPacket 0 [1, 2], by decide, by decide⟩, ⟨exPacket 1 [3], by decide, by decide⟩⟩

theorem ex_lossless : Lossless exParams.settings exNum Fetch.exCfg [exPacket 0 [1, 2], exPacket 1 [3]] exEvs := by
  intro e1 e e2 he
  rcases e1 with _ | ⟨x, _ | ⟨y, _ | ⟨z, e1⟩⟩⟩
  · simp only [exEvs, List.nil_append, List.cons.injEq] at he
    obtain ⟨rfl, _⟩ := he
    exact ⟨⟨0, .base⟩, by decide, _, _, rfl, ex_published.2, ⟨1, some 1, some (some 1), [3]⟩, by decide, by decide⟩
  · simp only [exEvs, List.cons_append, List.nil_append, List.cons.injEq] at he
    obtain ⟨rfl, rfl, _⟩ := he
    exact ⟨⟨2, .exact 1 0⟩, by decide, _, _, rfl, ex_published.1, ⟨1, some 0, some (some 1), [1, 2]⟩, by decide, by decide⟩
  · simp [exEvs] at he
  · simp [exEvs] at he

example : (run exParams.settings exNum Fetch.exCfg exEvs).log.getLast? = some (.complete [1, 2, 3]) := by decide

example := C138_lossless_partial exParams exNum [1, 2, 3] [⟨8, [65]⟩] 2 1000 0 _ ex_segment (by decide) (by decide) exPacket_wf
  Fetch.exCfg rfl rfl rfl exEvs ex_lossless

/-- In order: the first Interest is lost, octets that are no packet arrive, segment 1 overtakes segment 0. -/
def exEvs' : List Ev :=
  [.data 0 [6, 255] none 2 false false, .timeout 0 1 false, .data 1 (exWire 1 [3]) (some true) 2 false false,
    .data 3 (exWire 0 [1, 2]) none 2 false false, .result 4 true 2 false]

theorem exEvs'_log : (run exParams.settings exNum { Fetch.exCfg with inOrder := true } exEvs').log =
    [.timedOut, .received ⟨1, some 1, some (some 1), [3]⟩, .validated ⟨1, some 1, some (some 1), [3]⟩, .received ⟨1, some 0, some (some 1), [1, 2]⟩,
     .validated ⟨1, some 0, some (some 1), [1, 2]⟩, .inOrder [1, 2], .inOrder [3], .inOrderComplete] := by decide +kernel

theorem ex_trusted : Trusted exParams.settings exNum { Fetch.exCfg with inOrder := true } [exPacket 0 [1, 2], exPacket 1 [3]] exEvs' := by
  constructor
  · intro i wire w a b h
    simp only [exEvs', List.mem_cons, List.not_mem_nil, or_false, Ev.data.injEq, reduceCtorEq, and_false, false_and, false_or, or_false] at h
    obtain ⟨_, rfl, _⟩ := h
    exact ex_published.2
  · intro e1 vid w a e2 he v hv _
    refine ⟨exWire 0 [1, 2], ex_published.1, ?_⟩
    have h1 : receive exParams.settings exNum (exWire 0 [1, 2]) = some ⟨1, some 0, some (some 1), [1, 2]⟩ := by decide
    have h2 : ∀ k < 5, ∀ v ∈ (run exParams.settings exNum { Fetch.exCfg with inOrder := true } (exEvs'.take k)).validating,
        v.data = ⟨1, some 0, some (some 1), [1, 2]⟩ := by decide +kernel
    have h3 : e1 = exEvs'.take e1.length := by rw [he]; simp
    have h4 : e1.length < 5 := by
      have : exEvs'.length = 5 := rfl
      rw [he] at this
      simp at this
      omega
    rw [h3] at hv
    rw [h1, h2 _ h4 v hv]

example : (Fetch.Spec.delivered (run exParams.settings exNum { Fetch.exCfg with inOrder := true } exEvs').log).flatten = [1, 2, 3] :=
  (C138_intact exParams exNum [1, 2, 3] [⟨8, [65]⟩] 2 1000 0 _ ex_segment (by decide) (by decide) exPacket_wf _ exEvs' ex_trusted
    (by rw [exEvs'_log]; decide)).2.2 (by rw [exEvs'_log]; simp)

end Ndn.Flow
