import Verif.Flow.Announce
import Verif.Object.AnnounceProps
import Verif.Verify.NewSignProps
import Verif.Mgmt.CommandProps
/-
C145: `rib/announce`, the command whose parameters are a prefix announcement.
-/
namespace Ndn.Flow
open Ndn.Packet Ndn.Name Ndn.Block Ndn.Tlv Ndn.Packet.Spec Ndn.Block.Spec Ndn.Interest Ndn.Interest.Spec Ndn.Cert Ndn.Object
  Ndn.Object.Spec Ndn.Mgmt Ndn.Verify Ndn.Verify.Spec

/-- The announcement has the packet `f`; the encoding it caches, if any, is one of `f`, else `f` can be encoded. -/
def Holds (a : Ann) (f : DFields) : Prop :=
  a.pa.data = some f ∧
    match a.cache with
    | none => DataWF f
    | some w => ∃ b, fromBuffer w = some (b, []) ∧ dataDecode b = some f

theorem holds_wire {a : Ann} {f : DFields} (h : Holds a f) :
    ∃ w b, a.wireEncode = some w ∧ fromBuffer w = some (b, []) ∧ dataDecode b = some f := by
  obtain ⟨h1, h2⟩ := h
  unfold Ann.wireEncode
  rw [h1]
  cases hc : a.cache with
  | some w =>
    rw [hc] at h2
    obtain ⟨b, g1, g2⟩ := h2
    exact ⟨w, b, rfl, g1, g2⟩
  | none =>
    rw [hc] at h2
    obtain ⟨w, b, g1, g2, g3, g4⟩ := C23_roundtrip f h2
    obtain ⟨e1, es, e2, e3⟩ := (dataDecode_iff _ _).mp g3
    have hr : fromRange w true = some b := by
      obtain ⟨sv, hsv, _⟩ := h2.sigValue
      obtain ⟨k1, k2, k3⟩ := DFields.elems_ok h2 hsv
      have hw := DFields.encode_eq h2 hsv
      rw [g1] at hw
      have hw := Option.some.inj hw
      subst hw
      have hf := fromBuffer_tlvBytes (t := 6) (by decide) (by decide) k1
      rw [g2] at hf
      have := (Prod.mk.inj (Option.some.inj hf)).1
      subst this
      exact fromRange_tlvBytes (by decide) (by decide) k1
    refine ⟨w, b, ?_, g2, g3⟩
    simp only [DObj.wireEncode, g1, hr]
    have hd := (DObj.wireDecode_iff ⟨f, none, []⟩ _ b).mpr ⟨e1, es, f, e2, e3, rfl⟩
    rw [hd]
    rfl

/-- C145, the request: an announcement without packet is refused as an argument error; one whose packet can be encoded gives an
Interest under the name of the command, in the ApplicationParameters of which is the packet. -/
theorem C145_create (H : Bytes → Bytes) (auto : Bool) (top : List Comp) (a : Ann) :
    (a.pa.data = none → announceRequest H auto top a = .argument) ∧
    ∀ f, Holds a f → digests top = [] →
      ∃ w b, fromBuffer w = some (b, []) ∧ dataDecode b = some f ∧
        announceRequest H auto top a =
          .made ⟨{ IFields.cleared (top ++ [⟨8, strBytes "rib"⟩, ⟨8, strBytes "announce"⟩, ⟨2, H (binaryBlock 36 w).wire⟩]) with
            params := [binaryBlock 36 w] }, none⟩ := by
  constructor
  · intro h
    simp [announceRequest, announceValid, h]
  · intro f hf hd
    obtain ⟨w, b, h1, h2, h3⟩ := holds_wire hf
    refine ⟨w, b, h2, h3, ?_⟩
    have hd' : digests (top ++ ribAnnounce) = [] := by
      rw [digests_append, hd]; decide
    unfold announceRequest
    rw [if_neg (by simp [announceValid, hf.1])]
    have hs : IObj.init.step H auto (.setName (top ++ ribAnnounce)) = (true, ⟨IFields.cleared (top ++ ribAnnounce), none⟩) := by
      have hfd : findDigest (top ++ ribAnnounce) = -1 := findDigest_none.mpr hd'
      simp only [IObj.step, hfd]
      rw [if_neg (by decide), if_pos (by simp [ribAnnounce, IObj.init, IFields.cleared])]
      simp [IObj.init, IFields.cleared]
    rw [hs, h1]
    simp only [IObj.setParamsInternal, setParam0, IFields.cleared]
    rw [(addOrReplace_last hd' _).1]
    simp [wires, ribAnnounce]

/-- C145, the handler: what the parameters of an Interest announce is the announcement in the first Data packet in its first
parameter element; everything else is refused. -/
theorem C145_parse_exact (s : Settings) (other : Bytes → Cert.Parsed) (i : IFields) (pa : PA) :
    announceParse s other i = .ok pa ↔
      ∃ p rest es d f n e v, i.params = p :: rest ∧ ReadsAs p.value es ∧ FirstOf 6 es d ∧ dataDecode d = some f ∧
        Announces s other f n e v ∧ pa = ⟨n, toInt64 e, v, some f⟩ := by
  unfold announceParse
  constructor
  · intro h
    split at h
    · cases h
    · rename_i p rest hp
      split at h
      · cases h
      · rename_i es hes
        split at h
        · cases h
        · rename_i d hd
          split at h
          · cases h
          · rename_i f hf
            obtain ⟨n, e, v, h1, h2⟩ := (C70_announcement_exact s other f pa).mp h
            exact ⟨p, rest, es, d, f, n, e, v, hp, parseElements_iff.mp hes, (firstOf_iff 6 es d).mp hd, hf, h1, h2⟩
  · rintro ⟨p, rest, es, d, f, n, e, v, hp, hes, hd, hf, h1, h2⟩
    rw [hp]
    dsimp only
    rw [parseElements_iff.mpr hes]
    dsimp only
    rw [(firstOf_iff 6 es d).mpr hd]
    dsimp only
    rw [hf]
    exact (C70_announcement_exact s other f pa).mpr ⟨n, e, v, h1, h2⟩

/-- C145: any Interest whose first parameter element is that of the request gives the handler an announcement equal to the one
sent, with the same packet, and it passes the check of the command. -/
theorem C145_handled (s : Settings) (hc : Coherent s) (other : Bytes → Cert.Parsed) (a : Ann) (f : DFields) (ha : PaReach s other a.pa)
    (hf : Holds a f) (w : Bytes) (b : Raw) (hw : fromBuffer w = some (b, [])) (hb : dataDecode b = some f) (i : IFields) (rest : List Raw)
    (hi : i.params = binaryBlock 36 w :: rest) :
    ∃ pa', announceParse s other i = .ok pa' ∧ PA.equals a.pa pa' = true ∧ pa'.data = some f ∧ announceValid pa' = true := by
  obtain ⟨pa', h1, h2, h3⟩ := C70_announcement_roundtrip s other hc a.pa ha f hf.1
  refine ⟨pa', ?_, h2, h3, by simp [announceValid, h3]⟩
  obtain ⟨g1, g2⟩ := fromBuffer_iff.mp hw
  rw [List.append_nil] at g1
  have hp : parseElements w = some [b] := parseElements_iff.mpr ⟨by simp [g1], by simpa using g2⟩
  have ht : b.type = 6 := ((dataDecode_iff _ _).mp hb).1
  unfold announceParse
  rw [hi]
  dsimp only
  have : (binaryBlock 36 w).value = w := rfl
  rw [this, hp]
  simp [List.find?, ht, hb, h1]

/-- C145, from the caller to the handler: the request, signed in the new format with any key and signature information, encoded and
received, is an Interest under the name of the command; the handler gets an announcement equal to the one sent, with the very same
packet, and it passes the check. -/
theorem C145_signed (H : Bytes → Bytes) (hH : ∀ x, (H x).length = 32) (auto : Bool) (s : Settings) (hc : Coherent s) (other : Bytes → Cert.Parsed)
    (top : List Comp) (hd : digests top = []) (a : Ann) (f : DFields) (ha : PaReach s other a.pa) (hf : Holds a f)
    (o : IObj) (ho : announceRequest H auto top a = .made o) (info : SigInfo) (sign : Bytes → Bytes) (rnd : Bytes)
    (hw : InterestWF H { o.f with nonce := some rnd }) (hs : SigWF info)
    (hsize : (withSignature H o.f (top ++ ribAnnounce) info rnd (sign (message o.f (top ++ ribAnnounce) info))).encode.length < 2 ^ 64) :
    ∃ o' r1 r2 b i pa', Ndn.Interest.signInterest H auto o ⟨none, info⟩ sign rnd = some (o', r1, r2) ∧
      fromBuffer o'.f.encode = some (b, []) ∧ interestDecode H auto b = some i ∧
      top ++ [⟨8, strBytes "rib"⟩, ⟨8, strBytes "announce"⟩] <+: i.name ∧
      announceParse s other i = .ok pa' ∧ PA.equals a.pa pa' = true ∧ pa'.data = some f ∧ announceValid pa' = true := by
  obtain ⟨w, b, h1, h2, h3⟩ := (C145_create H auto top a).2 f hf hd
  rw [ho] at h3
  injection h3 with h3
  obtain ⟨g, wr⟩ := o
  injection h3 with hg hwr
  subst hwr
  have hp : g.params = [binaryBlock 36 w] := by rw [hg]
  have hn : g.name = (top ++ ribAnnounce) ++ [⟨2, H (binaryBlock 36 w).wire⟩] := by rw [hg]; simp [IFields.cleared, ribAnnounce]
  have hno : g.nonce = none := by rw [hg]; rfl
  dsimp only at hw hsize
  have hwf : InterestWF H { g with nonce := some (g.nonce.getD rnd) } := by rw [hno]; exact hw
  have hnw : NameWithout g (top ++ ribAnnounce) := Or.inr ⟨by simp [hp], _, hn, rfl, hH _⟩
  have hun : ∀ e ∈ g.params, e.type ≠ 44 ∧ e.type ≠ 46 := by
    intro e he; rw [hp, List.mem_singleton] at he; subst he; simp [binaryBlock]
  obtain ⟨⟨r1, r2, g1, -⟩, -⟩ := C142_new H hH auto g none _ info sign rnd (.pub (fun _ _ => true)) hwf hnw hun hs hsize
  obtain ⟨-, -, g2⟩ := new_core_wf H hH auto g none _ info _ rnd (verifies_key (.pub (fun _ _ => true))) hwf hnw hun hs hsize
  obtain ⟨-, b', k1, -, k2⟩ := C28_roundtrip H auto _ g2
  have hps : (withSignature H g (top ++ ribAnnounce) info rnd (sign (message g (top ++ ribAnnounce) info))).params =
      binaryBlock 36 w :: ([binaryBlock 44 (wires info.elems)] ++ [binaryBlock 46 (sign (message g (top ++ ribAnnounce) info))]) := by
    simp [withSignature, toSign, hp]
  obtain ⟨pa', p1, p2, p3, p4⟩ := C145_handled s hc other a f ha hf w b h1 h2 _ _ hps
  refine ⟨_, r1, r2, b', _, pa', g1, k1, k2, ?_, p1, p2, p3, p4⟩
  exact List.prefix_append _ _

/-- C145, the response is checked as one to `rib/register`: the five fields and nothing else but the expiration period, and the
face is valid. -/
theorem C145_response (p : Params) :
    announceResponse p = .accept ↔
      (∀ fl ∈ [Field.name, .faceId, .origin, .cost, .flags], p.present fl = true) ∧
      (∀ fl, p.present fl = true → fl ∈ [Field.name, .faceId, .origin, .cost, .flags, .expirationPeriod]) ∧ p.faceId ≠ some 0 := by
  unfold announceResponse
  rw [C63_response]
  constructor
  · rintro ⟨h1, h2⟩
    refine ⟨?_, ?_, h2⟩
    · intro fl hfl
      simp only [List.mem_cons, List.not_mem_nil, or_false] at hfl
      rcases hfl with rfl | rfl | rfl | rfl | rfl <;> exact (h1 _).1 rfl
    · intro fl hp
      have := (h1 fl).2
      cases fl <;> simp only [List.mem_cons, reduceCtorEq, List.not_mem_nil, or_false, or_true, true_or] <;>
        exact absurd hp (by rw [this rfl]; decide)
  · rintro ⟨h1, h2, h3⟩
    refine ⟨?_, h3⟩
    intro fl
    constructor
    · intro hr
      apply h1
      cases fl <;> first | decide | cases hr
    · intro hr
      cases hp : p.present fl with
      | false => rfl
      | true =>
        have := h2 fl hp
        exfalso
        revert this
        cases fl <;> first | decide | exact absurd hr (by decide)

/-! ### A concrete case -/

/-- The announcement of `/A` for 1 ms. -/
def exAnn : DFields := sampleAnn (nniTlv 109 1)

def exSettings : Settings := ⟨false, false, true⟩

def exHeld : Ann := ⟨⟨[⟨8, [65]⟩], 1, none, some exAnn⟩, none⟩

theorem exHeld_reach : PaReach exSettings (fun _ => .badCast) exHeld.pa := .ofData (f := exAnn) rfl

theorem exAnn_wf : DataWF exAnn := by
  have hsig : SigWF ⟨some 0, none, []⟩ := sampleData_wf.sigInfo
  refine ⟨?_, ⟨by decide, by decide, ?_, ?_, by decide⟩, ?_, hsig, ⟨_, rfl, binaryBlock_wf (by decide) (by decide) (by decide), rfl⟩, ?_⟩
  · unfold Ndn.Packet.Spec.NameWF; decide +kernel
  · intro c hc; simp [exAnn, sampleAnn] at hc
  · intro b hb; simp [exAnn, sampleAnn] at hb
  · intro c hc
    simp only [exAnn, sampleAnn, Option.some.injEq] at hc; subst hc
    exact ⟨binaryBlock_wf (by decide) (by decide) (by decide +kernel), rfl⟩
  · decide +kernel

theorem exHeld_holds : Holds exHeld exAnn := ⟨rfl, exAnn_wf⟩

/-- The request under `/N`. -/
def exRequest : IObj :=
  match announceRequest zeroHash true [⟨8, [78]⟩] exHeld with
  | .made o => o
  | _ => IObj.init

theorem exRequest_wf : InterestWF zeroHash { exRequest.f with nonce := some [1, 2, 3, 4] } where
  name := by unfold Ndn.Packet.Spec.NameWF; decide +kernel
  nonempty := by decide +kernel
  digest := Or.inr ⟨by decide +kernel, by decide +kernel⟩
  hint := by
    have : exRequest.f.hint = [] := by decide +kernel
    intro n hn
    dsimp only at hn
    rw [this] at hn; cases hn
  nonce := ⟨_, rfl, rfl⟩
  lifetime := by decide +kernel
  params := by
    have : exRequest.f.params = [binaryBlock 36 (exAnn.encode.getD [])] := by decide +kernel
    intro b hb
    dsimp only at hb
    rw [this, List.mem_singleton] at hb
    subst hb
    exact ⟨binaryBlock_wf (by decide) (by decide) (by decide +kernel), by decide, by decide⟩
  params0 := by
    have : exRequest.f.params = [binaryBlock 36 (exAnn.encode.getD [])] := by decide +kernel
    intro b hb
    dsimp only at hb
    rw [this] at hb
    simp at hb; subst hb; rfl
  params1 := by
    have : exRequest.f.params = [binaryBlock 36 (exAnn.encode.getD [])] := by decide +kernel
    intro b hb
    dsimp only at hb
    rw [this] at hb
    simp at hb
  size := by decide +kernel

/-- The hypotheses of C145_signed are met. -/
example := C145_signed zeroHash (by intro x; simp [zeroHash]) true exSettings rfl (fun _ => .badCast) [⟨8, [78]⟩] (by decide)
  exHeld exAnn exHeld_reach exHeld_holds exRequest (by decide +kernel) ⟨some 3, none, []⟩ (fun _ => [7]) [1, 2, 3, 4] exRequest_wf sigWF_ecdsa
  (by decide +kernel)

/-! ### What does not hold -/

/-- The claim that an announcement that passes the check of the command gives a request. -/
def C145_valid_claim : Prop :=
  ∀ (H : Bytes → Bytes) (s : Settings) (other : Bytes → Cert.Parsed) (top : List Comp) (a : Ann), PaReach s other a.pa → a.cache = none →
    digests top = [] → announceValid a.pa = true → ∃ o, announceRequest H true top a = .made o

/-- After `toData` threw because signing failed, the announcement still has a packet: the check "must be signed" passes, and it is
the encoding of the unsigned packet that throws, not an `ArgumentError`. -/
theorem C145_valid_counterexample : ¬ C145_valid_claim := by
  intro h
  obtain ⟨o, ho⟩ := h zeroHash exSettings (fun _ => .badCast) [] ⟨(PA.empty.step exSettings (.toData 1 (fun f => (false, f)))).2, none⟩
    (.step .empty ⟨by decide, fun _ => ⟨rfl, rfl, rfl⟩⟩) rfl (by decide) (by decide)
  have : ∀ c : Created, c = announceRequest zeroHash true [] ⟨(PA.empty.step exSettings (.toData 1 (fun f => (false, f)))).2, none⟩ → c = .error := by
    rintro c rfl
    rfl
  have := this _ ho.symm
  cases this

end Ndn.Flow
