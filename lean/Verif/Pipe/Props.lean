import Verif.Pipe.StepLemmas
import Verif.Hex.Props
/-
C111 to C115: pipelines, step sources, signatures of octets, digest objects, saved and loaded octets.
-/
namespace Ndn.Pipe
open Ndn.Pipe.Spec

/-! ### C111: pipelines -/

/-- C111: a pipeline of any modules gives the functions of its modules, one after the other, of the whole input, however the input
is divided into buffers. -/
theorem C111_buffers (ps : Pipeline) (h : ∀ p ∈ ps, Computes p.1 p.2) (bs : List Bytes) (out : Bytes) :
    runBuffers (ps.map (·.1)) bs = .ok out ↔ through ps bs.flatten = some out := by
  obtain ⟨R, h1, h2⟩ := chain_sound (.stream [] 0) ps h 1
  unfold runBuffers
  rcases pump_sound h1 bs _ _ h2 with ⟨s', v, q1, q2, q3⟩ | ⟨⟨i, q1⟩, q2⟩
  · obtain ⟨o, q4, rfl⟩ := through_stream q2
    rw [q1, outOf_ok q3]
    rw [List.nil_append] at q4
    rw [q4]
    simp
  · rw [q1]
    simp only [List.nil_append, Option.map_eq_none_iff] at q2
    rw [q2]
    simp [Except.map, outOf]

/-- C111: the only exceptions are those of a module that refuses its input: no module is written to after its end, no assertion
fails and every loop ends. -/
theorem C111_errors (ps : Pipeline) (h : ∀ p ∈ ps, Computes p.1 p.2) (bs : List Bytes) (e : Err)
    (he : runBuffers (ps.map (·.1)) bs = .error e) : ∃ i, e = .refused i := by
  obtain ⟨R, h1, h2⟩ := chain_sound (.stream [] 0) ps h 1
  unfold runBuffers at he
  rcases pump_sound h1 bs _ _ h2 with ⟨s', v, q1, q2, q3⟩ | ⟨⟨i, q1⟩, q2⟩
  · obtain ⟨o, q4, rfl⟩ := through_stream q2
    rw [q1, outOf_ok q3] at he
    cases he
  · rw [q1] at he
    injection he with he
    exact ⟨i, he.symm⟩

/-- C111: the division of the input is of no importance. -/
theorem C111_division (ps : Pipeline) (h : ∀ p ∈ ps, Computes p.1 p.2) (bs cs : List Bytes) (hf : bs.flatten = cs.flatten) (out : Bytes) :
    runBuffers (ps.map (·.1)) bs = .ok out ↔ runBuffers (ps.map (·.1)) cs = .ok out := by
  rw [C111_buffers ps h, C111_buffers ps h, hf]

/-- C111: nor is the size of the buffer of a stream source. -/
theorem C111_stream (ps : Pipeline) (h : ∀ p ∈ ps, Computes p.1 p.2) (k : Nat) (hk : 0 < k) (x out : Bytes) :
    runStream (ps.map (·.1)) k ⟨x, false, false⟩ = .ok out ↔ through ps x = some out := by
  obtain ⟨R, h1, h2⟩ := chain_sound (.stream [] 0) ps h 1
  unfold runStream streamRun
  rcases streamPump_sound h1 k hk (2 * x.length + 4) _ [] [] ⟨x, false, false⟩ (by simp [todo]) (by simp) rfl h2 with
    ⟨s', v, q1, q2, q3⟩ | ⟨⟨i, q1⟩, q2⟩
  · obtain ⟨o, q4, rfl⟩ := through_stream q2
    rw [q1, outOf_ok q3]
    simp only [List.append_nil, List.nil_append] at q4
    rw [q4]
    simp
  · rw [q1]
    simp only [List.append_nil, List.nil_append, Option.map_eq_none_iff] at q2
    rw [q2]
    simp [Except.map, outOf]

/-- C111: a stream that breaks is always reported. -/
theorem C111_broken (ps : Pipeline) (h : ∀ p ∈ ps, Computes p.1 p.2) (k : Nat) (hk : 0 < k) (x : Bytes) :
    ∃ e, runStream (ps.map (·.1)) k ⟨x, false, true⟩ = .error e ∧ (e = .badStream ∨ ∃ i, e = .refused i) := by
  obtain ⟨R, h1, h2⟩ := chain_sound (.stream [] 0) ps h 1
  unfold runStream streamRun
  obtain ⟨e, q1, q2⟩ := streamPump_bad h1 k hk (2 * x.length + 4) _ [] [] ⟨x, false, true⟩ false (by simp [todo]) rfl rfl h2
  refine ⟨e, ?_, ?_⟩
  · rw [q1]; rfl
  · rcases q2 with q | ⟨q, -⟩
    · exact .inl q
    · exact .inr q

/-- The hypotheses can be met, and the pipelines do something. -/
example : runBuffers [hexEncodeMod true, hexDecodeMod, contextMod (fun x => some [UInt8.ofNat x.length])] [[1, 2], [], [3]] = .ok [3] := by rfl
example : runBuffers [stripSpaceMod (· = 10), hexDecodeMod] [[52], [10, 49, 53], [48, 10]] = .ok [65, 80] := by rfl
example : runBuffers [hexDecodeMod] [[52], [48, 49]] = .error (.refused 1) := by rfl
example : runStream [hexEncodeMod false] 2 ⟨[171, 1, 2], false, false⟩ = .ok [97, 98, 48, 49, 48, 50] := by rfl
example : ∀ p ∈ ([(hexDecodeMod, Hex.fromHex), (bioMod ⟨id, some⟩, some)] : Pipeline), Computes p.1 p.2 := by
  intro p hp
  simp only [List.mem_cons, List.not_mem_nil, or_false] at hp
  rcases hp with rfl | rfl
  · exact .hexDecode
  · exact .bio (e := ⟨id, some⟩) ⟨fun x y => ⟨y, rfl⟩, by rintro x z ⟨⟩; exact List.prefix_refl _⟩

/-! ### C112: step sources -/

/-- C112: each call on a step source does what it is to do: before the first `end()` a write takes all it is given, later it throws,
and `end()` can be repeated. If the history has an `end()` the sink has been flushed exactly once, and holds what the modules
make of all that was written before the first `end()`. -/
theorem C112_history (ps : Pipeline) (h : ∀ p ∈ ps, Computes p.1 p.2) (ops : List SOp) (s : (chain 1 (ps.map (·.1))).St) (log : List SObs)
    (hrun : stepRun (chain 1 (ps.map (·.1))) (chainInit (.stream [] 0) 1 (ps.map (·.1))) [] ops = .ok (s, log)) :
    log = obsAfter false ops ∧
    (hasEnd ops = true → ∃ out, through ps (input ops) = some out ∧ (chain 1 (ps.map (·.1))).sink s = ⟨.stream out 1, true⟩) ∧
    (hasEnd ops = false → ((chain 1 (ps.map (·.1))).sink s).ended = false) := by
  obtain ⟨R, h1, h2⟩ := chain_sound (.stream [] 0) ps h 1
  rcases stepRun_sound h1 ops _ [] [] h2 with ⟨s', q1, q2, q3⟩ | ⟨⟨i, q1⟩, -⟩
  · rw [q1] at hrun
    injection hrun with hrun
    injection hrun with e1 e2
    subst e1
    refine ⟨by rw [← e2]; rfl, fun he => ?_, fun he => h1.unended _ _ (q3 he)⟩
    obtain ⟨v, q4, q5⟩ := q2 he
    obtain ⟨out, q6, rfl⟩ := through_stream q4
    exact ⟨out, q6, q5⟩
  · rw [q1] at hrun; cases hrun

/-- C112: it throws for another reason exactly if a module refuses its input; if that happens before the end, then there is no way
to go on that would be accepted. -/
theorem C112_refused (ps : Pipeline) (h : ∀ p ∈ ps, Computes p.1 p.2) (ops : List SOp) (e : Err)
    (hrun : stepRun (chain 1 (ps.map (·.1))) (chainInit (.stream [] 0) 1 (ps.map (·.1))) [] ops = .error e) :
    (∃ i, e = .refused i) ∧ (hasEnd ops = true → through ps (input ops) = none) ∧
    (hasEnd ops = false → ∀ y, through ps (input ops ++ y) = none) := by
  obtain ⟨R, h1, h2⟩ := chain_sound (.stream [] 0) ps h 1
  rcases stepRun_sound h1 ops _ [] [] h2 with ⟨s', q1, q2, q3⟩ | ⟨⟨i, q1⟩, q2, q3⟩
  · rw [q1] at hrun; cases hrun
  · rw [q1] at hrun
    injection hrun with hrun
    exact ⟨⟨i, hrun.symm⟩, fun he => by simpa using q2 he, fun he y => by simpa using q3 he y⟩

example : (stepRun (chain 1 [hexEncodeMod true]) (chainInit (.stream [] 0) 1 [hexEncodeMod true]) []
    [.write [1], .write [], .fin, .write [2], .fin]).map (·.2) = .ok [.wrote 1, .wrote 0, .ended, .closed, .ended] := by rfl

/-! ### C113: signatures of octets -/

theorem verify_eq (blobs : List Bytes) (sig : Bytes) (key : VKey) : verifyBlobs blobs sig key = key.accepts blobs.flatten sig := by
  obtain ⟨R, h1, h2⟩ := chain_sound (.bool false false)
    [(verifierMod key sig, fun x => some [if key.accepts x sig then 1 else 0])]
    (by intro p hp; simp only [List.mem_singleton] at hp; subst hp; exact .context _) 1
  unfold verifyBlobs
  rcases pump_sound h1 blobs _ _ h2 with ⟨s', v, q1, q2, q3⟩ | ⟨-, q2⟩
  · have q1 : pump (chain 1 [verifierMod key sig]) (chainInit (.bool false false) 1 [verifierMod key sig]) blobs = .ok s' := q1
    have q3 : (chain 1 [verifierMod key sig]).sink s' = ⟨v, true⟩ := q3
    dsimp only
    rw [q1]
    dsimp only
    rw [q3]
    simp only [through, List.nil_append, Option.map_some, Option.some.injEq] at q2
    have key : ∀ c : Bool, ((SinkVal.bool false false).write [if c then 1 else 0]).fin = .bool c true := by decide
    rw [key] at q2
    subst q2
    rfl
  · simp [through] at q2

/-- C113: with a public key a signature is accepted exactly if the key verifies it for the octets of all blobs together. -/
theorem C113_public (verifies : Bytes → Bytes → Bool) (blobs : List Bytes) (sig : Bytes) :
    verifyBlobs blobs sig (.pub verifies) = true ↔ verifies blobs.flatten sig = true := by
  rw [verify_eq]; rfl

/-- C113: the full claim for HMAC keys: exactly the HMAC of the octets is accepted. -/
def C113_hmac_claim : Prop := ∀ (mac : Bytes → Bytes) (blobs : List Bytes) (sig : Bytes),
  verifyBlobs blobs sig (.hmac mac) = true ↔ sig = mac blobs.flatten

/-- C113: only as many octets are compared as both have, so that an empty signature, or the first octet of the HMAC alone, is
accepted for any octets. -/
theorem C113_hmac_counterexample : ¬ C113_hmac_claim := by
  intro h
  have := (h (fun _ => [1, 2, 3]) [[7]] []).1 (by decide)
  cases this

/-- C113: the empty signature verifies everything with every HMAC key. -/
theorem C113_empty (mac : Bytes → Bytes) (blobs : List Bytes) : verifyBlobs blobs [] (.hmac mac) = true := by
  rw [verify_eq]
  simp [VKey.accepts, hmacOk]

/-- C113: what is accepted: signatures that begin with the HMAC, and those the HMAC begins with. -/
theorem C113_hmac_accepted (mac : Bytes → Bytes) (blobs : List Bytes) (sig : Bytes) :
    verifyBlobs blobs sig (.hmac mac) = true ↔ sig <+: mac blobs.flatten ∨ mac blobs.flatten <+: sig := by
  rw [verify_eq]
  show hmacOk _ _ = true ↔ _
  unfold hmacOk
  generalize mac blobs.flatten = m
  simp only [beq_iff_eq]
  rcases Nat.le_total m.length sig.length with hle | hle
  · rw [Nat.min_eq_left hle, List.take_length]
    constructor
    · intro h; right; rw [h]; exact List.take_prefix _ _
    · rintro (h | h)
      · have := h.eq_of_length (Nat.le_antisymm h.length_le hle); subst this; simp
      · obtain ⟨t, rfl⟩ := h; simp
  · rw [Nat.min_eq_right hle, List.take_length]
    constructor
    · intro h; left; rw [← h]; exact List.take_prefix _ _
    · rintro (h | h)
      · obtain ⟨t, rfl⟩ := h; simp
      · have := h.eq_of_length (Nat.le_antisymm h.length_le hle); subst this; simp

/-- C113: the part that holds: among signatures of the length of the HMAC exactly the HMAC is accepted. Missing: other lengths. -/
theorem C113_hmac_partial (mac : Bytes → Bytes) (blobs : List Bytes) (sig : Bytes) (h : sig.length = (mac blobs.flatten).length) :
    verifyBlobs blobs sig (.hmac mac) = true ↔ sig = mac blobs.flatten := by
  rw [C113_hmac_accepted]
  constructor
  · rintro (hp | hp)
    · exact hp.eq_of_length h
    · exact (hp.eq_of_length h.symm).symm
  · rintro rfl; exact .inl (List.prefix_refl _)

example : verifyBlobs [[1], [2]] [3, 4] (.hmac (fun x => x.map (· + 2))) = true ∧
    verifyBlobs [[1], [2]] [3, 5] (.hmac (fun x => x.map (· + 2))) = false := by decide

/-- C113: a digest is accepted exactly if there is something to verify and it is the digest of the octets of all blobs together. -/
theorem C113_digest (sha : Bytes → Bytes) (blobs : List Bytes) (sig : Bytes) :
    verifyDigest sha blobs sig = true ↔ blobs ≠ [] ∧ sig = sha blobs.flatten := by
  unfold verifyDigest
  by_cases hb : blobs = []
  · simp [hb]
  · rw [if_neg hb]
    have := (C111_buffers [(contextMod (fun x => some (sha x)), fun x => some (sha x))]
      (by intro p hp; simp only [List.mem_singleton] at hp; subst hp; exact .context _) blobs (sha blobs.flatten)).2 rfl
    simp only [List.map_cons, List.map_nil] at this
    rw [this]
    dsimp only
    by_cases he : sig = sha blobs.flatten
    · subst he; simp [hb]
    · constructor
      · intro h
        split at h
        · cases h
        · exact absurd (by simpa using h : sha blobs.flatten = sig).symm he
      · exact fun h => absurd h.2 he

example : verifyDigest (fun x => [UInt8.ofNat x.length]) [[1], [2, 3]] [3] = true := by decide

/-! ### C114: digest objects -/

/-- C114: whatever is called on any number of digest objects, all that can be seen is what objects would show that keep the octets put
in and have their digest taken: the digest is that of all octets put in since the last reset, it can be asked for repeatedly, and
octets put in after it throw. -/
theorem C114_refines (sha : Bytes → Bytes) (ops : List ShaOp) :
    (shaRun (fun _ => Sha.new sha, []) ops).2 = (objRun sha (fun _ => ⟨[], false, true⟩, []) ops).2 := by
  obtain ⟨R, h1, h2⟩ := sha_sound sha
  exact run_sim h1 h2 ops (f := fun _ => Sha.new sha) (g := fun _ => ⟨[], false, true⟩) (fun _ => ⟨rfl, rfl, h2⟩) []

/-- C114: in particular the digest of an object into which some octets were put, in any pieces. -/
theorem C114_pieces (sha : Bytes → Bytes) (bs : List Bytes) :
    (shaRun (fun _ => Sha.new sha, []) (bs.map (ShaOp.update 0) ++ [.digest 0])).2 = bs.map (fun _ => .nothing) ++ [.octets (sha bs.flatten)] := by
  rw [C114_refines]
  have key : ∀ (bs : List Bytes) (g : Nat → Obj) (log : List ShaObs), (g 0).taken = false →
      (objRun sha (g, log) (bs.map (ShaOp.update 0) ++ [.digest 0])).2 = log ++ bs.map (fun _ => .nothing) ++ [.octets (sha ((g 0).content ++ bs.flatten))] := by
    intro bs
    induction bs with
    | nil => intro g log h; simp [objRun, objStep]
    | cons b bs ih =>
      intro g log h
      simp only [List.map_cons, List.cons_append, objRun, objStep, h, Bool.false_eq_true, if_false]
      rw [ih _ _ (by simp [put])]
      simp [put]
  rw [key bs _ [] rfl]
  simp

example : (shaRun (fun _ => Sha.new (fun x => [UInt8.ofNat x.length]), []) [.update 0 [1, 2], .empty 1, .append 1 0, .digest 1, .update 0 [3], .eq 0 1,
    .append 1 1, .reset 1, .empty 1]).2 =
  [.nothing, .bool true, .nothing, .octets [1], .threw, .bool false, .threw, .nothing, .bool true] := by decide

/-! ### C115: saved and loaded octets -/

/-- What is known of OpenSSL's base64: both directions give their output piece by piece and do not fail, and what was encoded, without
the line breaks, is decoded to what it was. -/
structure Base64Laws (B : Base64) : Prop where
  enc : Lawful B.enc
  dec : Lawful B.dec
  total : ∀ x, (B.dec.final x).isSome
  encTotal : ∀ x, (B.enc.final x).isSome
  inv : ∀ x z, B.enc.final x = some z → B.dec.final (z.filter (fun c => !decide (c = 10))) = some x

/-- The encodings, as pipelines. -/
def savePipe (B : Base64) : Enc → Pipeline
  | .none => []
  | .base64 => [(bioMod B.enc, B.enc.final)]
  | .hex => [(hexEncodeMod true, fun x => some (Hex.hexEncode true x))]

def loadPipe (B : Base64) : Enc → Pipeline
  | .none => []
  | .base64 => [(stripSpaceMod (fun c => c = 10), fun x => some (x.filter (fun c => !decide (c = 10)))), (bioDecodeMod B.dec, B.dec.final)]
  | .hex => [(hexDecodeMod, Hex.fromHex)]

theorem savePipe_ok {B : Base64} (h : Base64Laws B) (e : Enc) : ∀ p ∈ savePipe B e, Computes p.1 p.2 := by
  intro p hp
  cases e <;> simp only [savePipe, List.mem_cons, List.not_mem_nil, or_false] at hp
  · subst hp; exact .bio h.enc
  · subst hp; exact .hexEncode true

theorem loadPipe_ok {B : Base64} (h : Base64Laws B) (e : Enc) : ∀ p ∈ loadPipe B e, Computes p.1 p.2 := by
  intro p hp
  cases e <;> simp only [loadPipe, List.mem_cons, List.not_mem_nil, or_false] at hp
  · rcases hp with rfl | rfl
    · exact .stripSpace _
    · exact .bioDecode h.dec h.total
  · subst hp; exact .hexDecode

theorem save_iff {B : Base64} (h : Base64Laws B) (e : Enc) (x out : Bytes) : saveBuffer B x e = .ok out ↔ through (savePipe B e) x = some out := by
  have := C111_buffers (savePipe B e) (savePipe_ok h e) [x] out
  simp only [List.flatten_cons, List.flatten_nil, List.append_nil] at this
  rw [← this]
  cases e <;> exact Iff.rfl

theorem load_iff {B : Base64} (h : Base64Laws B) (e : Enc) (x out : Bytes) :
    loadBuffer B ⟨x, false, false⟩ e = .ok out ↔ through (loadPipe B e) x = some out := by
  have := C111_stream (loadPipe B e) (loadPipe_ok h e) 1024 (by omega) x out
  rw [← this]
  cases e <;> exact Iff.rfl

/-- C115: octets of any kind and length can be saved in each encoding, and are loaded as they were saved. -/
theorem C115_roundtrip (B : Base64) (h : Base64Laws B) (e : Enc) (x : Bytes) :
    ∃ text, saveBuffer B x e = .ok text ∧ loadBuffer B ⟨text, false, false⟩ e = .ok x := by
  cases e with
  | none => exact ⟨x, (save_iff h .none x x).2 rfl, (load_iff h .none x x).2 rfl⟩
  | base64 =>
    obtain ⟨z, hz⟩ := Option.isSome_iff_exists.1 (h.encTotal x)
    refine ⟨z, (save_iff h .base64 x z).2 (by simp [savePipe, through, hz]), (load_iff h .base64 z x).2 ?_⟩
    simp [loadPipe, through, h.inv x z hz]
  | hex =>
    refine ⟨Hex.hexEncode true x, (save_iff h .hex x _).2 rfl, (load_iff h .hex _ x).2 ?_⟩
    have : Hex.fromHex (Hex.hexEncode true x) = some x := Hex.C40_roundtrip true x [Hex.hexEncode true x] (by simp)
    simp [loadPipe, through, this]

/-- C115: a text is loaded as hexadecimal exactly if it is a hexadecimal notation, in upper or lower case, of what is loaded;
everything else throws. -/
theorem C115_hex (B : Base64) (h : Base64Laws B) (text out : Bytes) :
    loadBuffer B ⟨text, false, false⟩ .hex = .ok out ↔ Hex.Spec.HexForm text out := by
  rw [load_iff h]
  have : Hex.fromHex text = some out ↔ Hex.Spec.HexForm text out := by
    have := Hex.C40_decode_iff [text] out
    simpa [Hex.fromHex] using this
  rw [← this]
  simp only [loadPipe, through]
  cases Hex.fromHex text <;> simp

/-- C115: without encoding all octets are loaded. -/
theorem C115_none (B : Base64) (h : Base64Laws B) (x : Bytes) : loadBuffer B ⟨x, false, false⟩ .none = .ok x :=
  (load_iff h .none x x).2 rfl

/-- C115: line breaks are of no importance in base64. -/
theorem C115_lines (B : Base64) (h : Base64Laws B) (x y out : Bytes) (hxy : x.filter (fun c => !decide (c = 10)) = y.filter (fun c => !decide (c = 10))) :
    loadBuffer B ⟨x, false, false⟩ .base64 = .ok out ↔ loadBuffer B ⟨y, false, false⟩ .base64 = .ok out := by
  rw [load_iff h, load_iff h]
  simp only [loadPipe, through]
  rw [hxy]

/-- C115: the texts saved for different octets differ. -/
theorem C115_injective (B : Base64) (h : Base64Laws B) (e : Enc) (x y text : Bytes) (hx : saveBuffer B x e = .ok text)
    (hy : saveBuffer B y e = .ok text) : x = y := by
  obtain ⟨t, h1, h2⟩ := C115_roundtrip B h e x
  obtain ⟨u, h3, h4⟩ := C115_roundtrip B h e y
  rw [hx] at h1
  rw [hy] at h3
  injection h1 with h1
  injection h3 with h3
  subst h1 h3
  rw [h2] at h4
  injection h4

/-- C115: a stream that breaks while it is read is reported in each encoding. -/
theorem C115_broken (B : Base64) (h : Base64Laws B) (e : Enc) (x : Bytes) : ∃ err, loadBuffer B ⟨x, false, true⟩ e = .error err := by
  obtain ⟨err, h1, -⟩ := C111_broken (loadPipe B e) (loadPipe_ok h e) 1024 (by omega) x
  refine ⟨err, ?_⟩
  rw [← h1]
  cases e <;> rfl

end Ndn.Pipe
