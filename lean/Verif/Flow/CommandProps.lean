import Verif.Flow.DatasetProps
import Verif.Mgmt.DispatcherProps
import Verif.Mgmt.CommandProps
import Verif.Nfd.ControllerProps
/-
C140: a command goes from the Controller to the handler and its outcome back.
-/
namespace Ndn.Flow
open Ndn.Packet Ndn.Name Ndn.Block Ndn.Tlv Ndn.Packet.Spec Ndn.Mgmt Spec

theorem requests_prefix {l l' : Log} (h : l <+: l') : requests l <+: requests l' := by
  obtain ⟨t, rfl⟩ := h
  exact ⟨requests t, by simp [requests, outs]⟩

theorem handled_prefix {l l' : Log} (h : l <+: l') : handled l <+: handled l' := by
  obtain ⟨t, rfl⟩ := h
  exact ⟨handled t, by simp [handled, outs]⟩

theorem take_prefix {α : Type} (l : List α) {a b : Nat} (h : a ≤ b) : l.take a <+: l.take b := by
  rw [show a = min a b by omega, ← List.take_take]
  exact List.take_prefix _ _

theorem log_take_succ {s : Settings} {es : List Mgmt.Ev} {k : Nat} {e : Mgmt.Ev} {os : List Out} (h1 : es[k]? = some e)
    (h2 : (Disp.run s es {}).1[k]? = some os) : (logOf s es).take (k + 1) = (logOf s es).take k ++ [(e, os)] := by
  have : (logOf s es)[k]? = some (e, os) := by
    unfold logOf; rw [List.getElem?_zip_eq_some]; exact ⟨h1, h2⟩
  rw [List.take_add_one, this]; rfl

/-- The command the Controller asks for reaches its handler: if it is registered with the dispatcher under the prefix, then
the Interest, whatever signing appended to its name, is handed to the authorization function with the parameters given to the
Controller; when that accepts, the handler is called with them, the defaults filled in (it is never refused as invalid), and what the handler answers is sent under the name of the Interest. -/
theorem C140_request (s : Settings) (hs : Consistent s) (es : List Mgmt.Ev) (c : Command) (top suffix n : List Comp) (p : Params) (ok : Mgmt.Ok p)
    (hn : c.createRequest top p = some n) (k : Nat) (hit : Option Nat) (hk : es[k]? = some (.interest (n ++ suffix) hit))
    (ht : TopLive ((logOf s es).take k) top) (hh : HasHandler ((logOf s es).take k) [c.module, c.verb] (.command c)) :
    (Disp.run s es {}).1[k]? = some [.authorize top (n ++ suffix) (some p)] ∧
    ∀ k' i calls v, k < k' → i = (requests ((logOf s es).take k)).length → es[k']? = some (.accept i calls v) →
      (Disp.run s es {}).1[k']? = some [.handle top (n ++ suffix) (c.applyDefaults p)] ∧
      ∀ k'' j r, k' < k'' → j = (handled ((logOf s es).take k')).length → es[k'']? = some (.done j r) →
        (Disp.run s es {}).1[k'']? = some [.put ⟨n ++ suffix, .resp r, false, none⟩] := by
  obtain ⟨h1, h2, h3⟩ := C63_request_roundtrip c top p ok n hn
  have hacc : c.validateRequest p = .accept := (C63_create c top p).mp (by rw [hn]; rfl)
  have hpre : top ++ [c.module, c.verb] <+: n ++ suffix := h2.trans (List.prefix_append _ _)
  obtain ⟨os, g1, g2⟩ := C82_processing s hs es k _ hk
  have g3 := g2.1 top [c.module, c.verb] (.command c) ⟨ht, hh, hpre⟩
  have hauth : os = [.authorize top (n ++ suffix) (some p)] := by
    unfold parseRequest at h1
    split at h1
    · cases h1
    · rename_i x hx
      refine g3.1 x p ?_ h1
      rw [List.getElem?_append_left (by omega)]
      exact hx
  subst hauth
  refine ⟨g1, ?_⟩
  intro k' i calls v hkk hi hk'
  obtain ⟨os', g4, g5⟩ := C82_processing s hs es k' _ hk'
  have hreq : (requests ((logOf s es).take k'))[i]? = some (top, n ++ suffix, some p) := by
    have hp := requests_prefix (take_prefix (logOf s es) (show k + 1 ≤ k' by omega))
    rw [log_take_succ hk g1, requests_snoc] at hp
    have hx : (requests ((logOf s es).take k) ++ [(top, n ++ suffix, some p)])[i]? = some (top, n ++ suffix, some p) := by
      rw [hi, List.getElem?_append_right (Nat.le_refl _)]; simp
    obtain ⟨t, ht⟩ := hp
    rw [← ht]
    rw [List.getElem?_append_left (by rw [hi, List.length_append]; simp [reqOuts])]
    exact hx
  obtain ⟨rel, h, q1, q2, q3⟩ := g5.1 _ _ _ hreq
  have hsub : ∀ m, ∀ x ∈ (logOf s es).take m, x ∈ logOf s es := fun m x hx => List.mem_of_mem_take hx
  have hov : Overlap [c.module, c.verb] rel := by
    rcases prefix_cmp hpre q2 with h | h
    · exact Or.inl ((List.prefix_append_right_inj top).1 h)
    · exact Or.inr ((List.prefix_append_right_inj top).1 h)
  obtain ⟨rfl, rfl⟩ := C65_handlers s hs es _ _ _ _ (hsub _ _ hh) (hsub _ _ q1) hov
  have hos := q3.1 hacc
  subst hos
  refine ⟨g4, ?_⟩
  intro k'' j r hkk' hj hk''
  obtain ⟨os'', g6, g7⟩ := C82_processing s hs es k'' _ hk''
  have hrun : (handled ((logOf s es).take k''))[j]? = some (n ++ suffix) := by
    have hp := handled_prefix (take_prefix (logOf s es) (show k' + 1 ≤ k'' by omega))
    rw [log_take_succ hk' g4, handled_snoc] at hp
    have hx : (handled ((logOf s es).take k') ++ [n ++ suffix])[j]? = some (n ++ suffix) := by
      rw [hj, List.getElem?_append_right (Nat.le_refl _)]; simp
    obtain ⟨t, ht⟩ := hp
    rw [← ht]
    rw [List.getElem?_append_left (by rw [hj, List.length_append]; simp [runOuts])]
    exact hx
  obtain ⟨x, hx1, hx2, hx3, hx4, hx5⟩ := g7.1 _ hrun
  rw [g6, hx1]
  cases x
  simp only at hx2 hx3 hx4 hx5
  subst hx2 hx3 hx4 hx5
  rfl

/-- What the handler answers reaches the Controller: the packet that carries the response, received as octets and accepted by the
validator, makes the Controller report success with the parameters in the body if the code is less than 400 and the
command allows them, and failure with this very response if it is 400 or more. -/
theorem C140_response (sp : Segmenter.Params) (x : OutData) (r : Resp) (hx : x.content = .resp r) (hr : Nfd.Response.Ok ⟨r.code, r.text, r.body⟩)
    (f : DFields) (hf : sendData sp x = some f) (hwf : DataWF f) (wire : Bytes) (he : f.encode = some wire) :
    f.name = x.name ∧ ∃ content, contentOf wire = some content ∧
      ∀ (es : List Nfd.CEv) (l1 : Nfd.CLog) (i : Nat) (os : List Nfd.COut) (l2 : Nfd.CLog) (c : Command) (onS onF : Bool),
        Nfd.clog es = l1 ++ (.valid i, os) :: l2 → Nfd.Validating l1 i c onS onF content →
        (∀ q, Mgmt.Ok q → r.code < 400 → r.body = some q.encode → c.validateResponse q = .accept → os = if onS then [.success i q] else []) ∧
        (400 ≤ r.code → os = if onF then [.failure i (.server ⟨r.code, r.text, r.body⟩)] else []) := by
  obtain ⟨g1, _, _, g3⟩ := sendData_fields hf
  obtain ⟨w, b, h1, h2, h3, _⟩ := C23_roundtrip f hwf
  rw [he, Option.some.injEq] at h1
  subst h1
  refine ⟨g1, (contentBlock (.resp r)).wire, ?_, ?_⟩
  · unfold contentOf
    rw [h2]
    simp only [h3, Option.map_some, g3, hx, Option.getD_some]
    rfl
  · intro es l1 i os l2 c onS onF hl hv
    obtain ⟨a1, a2, _⟩ := (Nfd.C91_processing es _ _ _ _ hl).1 c onS onF _ hv
    obtain ⟨b1, b2⟩ := Nfd.C91_understood c ⟨r.code, r.text, r.body⟩ hr
    exact ⟨fun q hq hc hb hval => a1 q (b2 q hq hc hb hval), fun hc => a2 _ b1 hc⟩

/-! Witnesses: `cs/erase` -/

def exErase : Params := { name := some [⟨8, [120]⟩] }

theorem exErase_ok : Mgmt.Ok exErase := by
  refine ⟨?_, ?_, ?_, ?_, ?_, ?_, ?_, ?_, ?_, ?_, ?_, ?_, ?_, ?_, by decide +kernel⟩ <;> intro x hx <;> cases hx
  intro c hc; simp at hc; subst hc; decide

def exName : List Comp := [⟨8, [97]⟩, Command.csErase.module, Command.csErase.verb, ⟨8, [104, 5, 7, 3, 8, 1, 120]⟩]

/-- The handler is registered, the Interest comes with a component appended, is accepted and answered. -/
def exSession : List Mgmt.Ev :=
  [.addHandler [Command.csErase.module, Command.csErase.verb] (.command .csErase), .addTop [⟨8, [97]⟩],
   .interest (exName ++ [⟨2, List.replicate 32 1⟩]) none, .accept 0 [] 0, .done 0 ⟨200, [79, 75], some (Params.encode { name := some [⟨8, [120]⟩], count := some 3 })⟩]

example := C140_request exParams.settings rfl exSession .csErase [⟨8, [97]⟩] [⟨2, List.replicate 32 1⟩] exName exErase exErase_ok (by rfl) 2 none rfl
  ⟨[(_, _)], [], rfl, (fun _ h => by cases h)⟩ (List.mem_of_getElem? (i := 0) rfl)

def exAnswer : OutData := ⟨exName, .resp ⟨404, [78], none⟩, false, none⟩

def exAnswerPacket : DFields :=
  ⟨exName, ⟨0, 1000, none, []⟩, some (binaryBlock 21 [101, 7, 102, 2, 1, 148, 103, 1, 78]), ⟨some 0, none, []⟩, some (binaryBlock 23 [7])⟩

example : sendData exParams exAnswer = some exAnswerPacket := by decide +kernel

theorem exAnswerPacket_wf : DataWF exAnswerPacket := by
  have hsig : SigWF ⟨some 0, none, []⟩ := sampleData_wf.sigInfo
  refine ⟨?_, ⟨by decide, by decide, ?_, ?_, by decide⟩, ?_, hsig, ⟨_, rfl, binaryBlock_wf (by decide) (by decide) (by decide), rfl⟩, ?_⟩
  · unfold Ndn.Packet.Spec.NameWF; decide +kernel
  · intro c hc; simp [exAnswerPacket] at hc
  · intro b hb; simp [exAnswerPacket] at hb
  · intro c hc
    simp only [exAnswerPacket, Option.some.injEq] at hc; subst hc
    exact ⟨binaryBlock_wf (by decide) (by decide) (by decide), rfl⟩
  · intro w hw
    have h1 : (exAnswerPacket.encode.map List.length) = some 52 := by decide +kernel
    rw [hw] at h1
    simp at h1
    omega

example := C140_response exParams exAnswer ⟨404, [78], none⟩ rfl ⟨by decide, (by intro _ h; cases h), by decide⟩ exAnswerPacket (by decide +kernel)
  exAnswerPacket_wf _ (Option.some_get (by decide +kernel : exAnswerPacket.encode.isSome = true)).symm

end Ndn.Flow
