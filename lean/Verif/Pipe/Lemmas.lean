import Verif.Pipe.Spec
import Verif.Hex.Lemmas
/-
Lemmas on pipelines: a downstream that computes a function of all it is given, and modules in front of it.
-/
namespace Ndn.Pipe
open Ndn.Pipe.Spec

/-- A chain that has been ended. -/
def Closed (D : Iface) (s : D.St) : Prop := (∀ b, ∃ i, D.write s b = .error (.closed i)) ∧ D.fin s = .ok s

/-- `R s x`: the chain in state `s` is open and has taken `x`. `F x` is the value of the sink when the input was `x`. -/
structure Sound (D : Iface) (R : D.St → Bytes → Prop) (F : Bytes → Option SinkVal) : Prop where
  write : ∀ s x b, R s x →
    (∃ s', D.write s b = .ok (s', b.length) ∧ R s' (x ++ b)) ∨
    ((∃ i, D.write s b = .error (.refused i)) ∧ ∀ y, F (x ++ b ++ y) = none)
  fin : ∀ s x, R s x →
    (∃ s' v, D.fin s = .ok s' ∧ F x = some v ∧ D.sink s' = ⟨v, true⟩ ∧ Closed D s') ∨
    ((∃ i, D.fin s = .error (.refused i)) ∧ F x = none)
  unended : ∀ s x, R s x → (D.sink s).ended = false

/-- `I s x e`: the module in state `s` has taken `x` and given `e`. -/
structure Law (m : Mod) (I : m.σ → Bytes → Bytes → Prop) (den : Bytes → Option Bytes) : Prop where
  init : I m.init [] []
  fill : ∀ s x e, I s x e → I (m.fill s).1 x (e ++ (m.fill s).2) ∧ m.avail (m.fill s).1 + (m.fill s).2.length = m.avail s
  convert : ∀ s x e b, I s x e →
    (∃ s' o, m.convert s b = some (s', o, b.length) ∧ I s' (x ++ b) (e ++ o)) ∨
    (m.convert s b = none ∧ ∀ y, den (x ++ b ++ y) = none)
  mono : ∀ s x e y z, I s x e → den (x ++ y) = some z → e <+: z
  close : ∀ s x e, I s x e →
    (m.close s = none ∧ den x = none) ∨
    (∃ s' o z, m.close s = some (s', o) ∧ den x = some z ∧
      match o with
      | some b => z = e ++ b
      | none => match m.fin with
        | .nothing => z = e
        | .flush => z = e
        | _ => ∃ J : m.σ → Bytes → Prop, J s' e ∧ (∀ t e', J t e' → J (m.fill t).1 (e' ++ (m.fill t).2) ∧ ((m.fill t).2 = [] → e' = z) ∧
            e' ++ (m.fill t).2 <+: z ∧ m.avail (m.fill t).1 + (m.fill t).2.length = m.avail t))

variable {D : Iface} {R : D.St → Bytes → Prop} {F : Bytes → Option SinkVal}

theorem drop_length (b : Bytes) : b.drop b.length = [] := by simp

/-- Flushing to a sound downstream. -/
theorem flushBuf_sound (h : Sound D R F) (s : D.St) (x b : Bytes) (hr : R s x) :
    (∃ s', flushBuf D b s = .ok ([], s') ∧ R s' (x ++ b)) ∨
    ((∃ i, flushBuf D b s = .error (.refused i)) ∧ ∀ y, F (x ++ b ++ y) = none) := by
  unfold flushBuf
  by_cases hb : b = []
  · subst hb
    exact .inl ⟨s, by simp, by simpa using hr⟩
  · rw [if_neg hb]
    rcases h.write s x b hr with ⟨s', h1, h2⟩ | ⟨⟨i, h1⟩, h2⟩
    · rw [h1]
      exact .inl ⟨s', by simp, h2⟩
    · rw [h1]
      exact .inr ⟨⟨i, rfl⟩, h2⟩

theorem flushAll_sound (h : Sound D R F) (s : D.St) (x b : Bytes) (hr : R s x) :
    (∃ s', flushAll D b.length b s = .ok s' ∧ R s' (x ++ b)) ∨
    ((∃ i, flushAll D b.length b s = .error (.refused i)) ∧ ∀ y, F (x ++ b ++ y) = none) := by
  cases b with
  | nil => exact .inl ⟨s, by simp [flushAll], by simpa using hr⟩
  | cons c b =>
    simp only [List.length_cons, flushAll, reduceCtorEq, if_false]
    rcases flushBuf_sound h s x (c :: b) hr with ⟨s', h1, h2⟩ | ⟨⟨i, h1⟩, h2⟩
    · rw [h1]
      refine .inl ⟨s', ?_, h2⟩
      cases b <;> simp [flushAll]
    · rw [h1]
      exact .inr ⟨⟨i, rfl⟩, h2⟩

theorem prefix_append {e z : Bytes} (h : e <+: z) : ∃ y, z = e ++ y := by
  obtain ⟨y, h⟩ := h; exact ⟨y, h.symm⟩

section attach
variable {m : Mod} {I : m.σ → Bytes → Bytes → Prop} {den : Bytes → Option Bytes}

/-- The functions of a module and of what follows it. -/
def after (den : Bytes → Option Bytes) (F : Bytes → Option SinkVal) (x : Bytes) : Option SinkVal :=
  match den x with
  | none => none
  | some z => F z

theorem after_none (hl : Law m I den) {s : m.σ} {x e : Bytes} (hi : I s x e) (hF : ∀ y, F (e ++ y) = none) (y : Bytes) :
    after den F (x ++ y) = none := by
  unfold after
  split
  · rfl
  · rename_i z hz
    obtain ⟨w, rfl⟩ := prefix_append (hl.mono s x e y z hi hz)
    exact hF w

theorem preLoop_sound (h : Sound D R F) (hl : Law m I den) (f : Nat) (s : m.σ) (ds : D.St) (x e : Bytes) (hf : m.avail s < f)
    (hi : I s x e) (hr : R ds e) :
    (∃ s' ds' e', preLoop m D f s ds = .ok (s', [], ds') ∧ I s' x e' ∧ R ds' e') ∨
    ((∃ i, preLoop m D f s ds = .error (.refused i)) ∧ ∀ y, after den F (x ++ y) = none) := by
  induction f generalizing s ds e with
  | zero => omega
  | succ f ih =>
    simp only [preLoop]
    obtain ⟨h1, h2⟩ := hl.fill s x e hi
    by_cases hb : (m.fill s).2 = []
    · rw [if_pos hb]
      rw [hb, List.append_nil] at h1
      exact .inl ⟨_, _, e, rfl, h1, hr⟩
    · rw [if_neg hb]
      rcases flushBuf_sound h ds e (m.fill s).2 hr with ⟨ds', h3, h4⟩ | ⟨⟨i, h3⟩, h4⟩
      · rw [h3]
        simp only [if_true]
        refine ih _ _ _ ?_ h1 h4
        have : 0 < (m.fill s).2.length := List.length_pos_iff.2 hb
        omega
      · rw [h3]
        exact .inr ⟨⟨i, rfl⟩, after_none hl h1 h4⟩

theorem preTransform_sound (h : Sound D R F) (hl : Law m I den) (s : m.σ) (ds : D.St) (x e : Bytes) (hi : I s x e) (hr : R ds e) :
    (∃ s' b ds' e', preTransform m D s ds = .ok (s', b, ds') ∧ I s' x (e' ++ b) ∧ R ds' e') ∨
    ((∃ i, preTransform m D s ds = .error (.refused i)) ∧ ∀ y, after den F (x ++ y) = none) := by
  unfold preTransform
  split
  · exact .inl ⟨s, [], ds, e, rfl, by simpa using hi, hr⟩
  · exact .inl ⟨_, _, ds, e, rfl, (hl.fill s x e hi).1, hr⟩
  · rcases preLoop_sound h hl (m.avail s + 1) s ds x e (by omega) hi hr with ⟨s', ds', e', h1, h2, h3⟩ | h
    · exact .inl ⟨s', [], ds', e', h1, by simpa using h2, h3⟩
    · exact .inr h

theorem drainLoop_sound (h : Sound D R F) {z : Bytes} {J : m.σ → Bytes → Prop}
    (hJ : ∀ t e', J t e' → J (m.fill t).1 (e' ++ (m.fill t).2) ∧ ((m.fill t).2 = [] → e' = z) ∧ e' ++ (m.fill t).2 <+: z ∧
      m.avail (m.fill t).1 + (m.fill t).2.length = m.avail t) (f : Nat) (s : m.σ) (ds : D.St) (e : Bytes) (hf : m.avail s < f) (hj : J s e)
    (hr : R ds e) :
    (∃ ds', drainLoop m D f s ds = .ok ds' ∧ R ds' z) ∨ ((∃ i, drainLoop m D f s ds = .error (.refused i)) ∧ F z = none) := by
  induction f generalizing s ds e with
  | zero => omega
  | succ f ih =>
    simp only [drainLoop]
    obtain ⟨h1, h2, h3, h4⟩ := hJ s e hj
    by_cases hb : (m.fill s).2 = []
    · rw [if_pos hb]
      exact .inl ⟨ds, rfl, h2 hb ▸ hr⟩
    · rw [if_neg hb]
      rcases flushAll_sound h ds e (m.fill s).2 hr with ⟨ds', h5, h6⟩ | ⟨⟨i, h5⟩, h6⟩
      · rw [h5]
        refine ih _ _ _ ?_ h1 h6
        have : 0 < (m.fill s).2.length := List.length_pos_iff.2 hb
        omega
      · rw [h5]
        refine .inr ⟨⟨i, rfl⟩, ?_⟩
        obtain ⟨w, hw⟩ := prefix_append h3
        rw [hw]; exact h6 w

theorem readLoop_sound (h : Sound D R F) {z : Bytes} {J : m.σ → Bytes → Prop}
    (hJ : ∀ t e', J t e' → J (m.fill t).1 (e' ++ (m.fill t).2) ∧ ((m.fill t).2 = [] → e' = z) ∧ e' ++ (m.fill t).2 <+: z ∧
      m.avail (m.fill t).1 + (m.fill t).2.length = m.avail t) (f : Nat) (s : m.σ) (ds : D.St) (e : Bytes) (hf : m.avail s < f) (hj : J s e)
    (hr : R ds e) :
    (∃ ds', readLoop m D f (m.fill s).1 (m.fill s).2 ds = .ok ds' ∧ R ds' z) ∨
    ((∃ i, readLoop m D f (m.fill s).1 (m.fill s).2 ds = .error (.refused i)) ∧ F z = none) := by
  induction f generalizing s ds e with
  | zero => omega
  | succ f ih =>
    simp only [readLoop]
    obtain ⟨h1, h2, h3, h4⟩ := hJ s e hj
    by_cases hb : (m.fill s).2 = []
    · rw [if_pos hb]
      exact .inl ⟨ds, rfl, h2 hb ▸ hr⟩
    · rw [if_neg hb]
      rcases flushBuf_sound h ds e (m.fill s).2 hr with ⟨ds', h5, h6⟩ | ⟨⟨i, h5⟩, h6⟩
      · rw [h5]
        simp only [if_true]
        refine ih _ _ _ ?_ h1 h6
        have : 0 < (m.fill s).2.length := List.length_pos_iff.2 hb
        omega
      · rw [h5]
        refine .inr ⟨⟨i, rfl⟩, ?_⟩
        obtain ⟨w, hw⟩ := prefix_append h3
        rw [hw]; exact h6 w

theorem finalize_sound (h : Sound D R F) (hl : Law m I den) (i : Nat) (n : Node m.σ) (ds : D.St) (x e : Bytes) (ho : n.obuf = [])
    (hi : I n.st x e) (hr : R ds e) :
    (∃ ds' z, finalize i m D n ds = .ok ds' ∧ den x = some z ∧ R ds' z) ∨
    ((∃ j, finalize i m D n ds = .error (.refused j)) ∧ after den F x = none) := by
  unfold finalize
  rcases hl.close n.st x e hi with ⟨h1, h2⟩ | ⟨s', o, z, h1, h2, h3⟩
  · rw [h1]
    exact .inr ⟨⟨i, rfl⟩, by unfold after; rw [h2]⟩
  · rw [h1]
    dsimp only
    have haf : F z = none → after den F x = none := by intro hn; unfold after; rw [h2]; exact hn
    cases o with
    | some b =>
      dsimp only at h3 ⊢
      rw [if_neg (by simp [ho])]
      rcases flushAll_sound h ds e b hr with ⟨ds', h5, h6⟩ | ⟨⟨j, h5⟩, h6⟩
      · exact .inl ⟨ds', z, h5, h2, h3 ▸ h6⟩
      · refine .inr ⟨⟨j, h5⟩, haf ?_⟩
        have := h6 []
        rw [List.append_nil, ← h3] at this
        exact this
    | none =>
      dsimp only at h3 ⊢
      cases hfin : m.fin with
      | nothing =>
        rw [hfin] at h3
        exact .inl ⟨ds, z, rfl, h2, h3 ▸ hr⟩
      | flush =>
        rw [hfin] at h3
        dsimp only
        rw [ho]
        exact .inl ⟨ds, z, rfl, h2, h3 ▸ hr⟩
      | drain =>
        rw [hfin] at h3
        obtain ⟨J, hj, hJ⟩ := h3
        dsimp only
        rw [if_neg (by simp [ho])]
        rcases drainLoop_sound h hJ (m.avail s' + 1) s' ds e (by omega) hj hr with ⟨ds', h5, h6⟩ | ⟨⟨j, h5⟩, h6⟩
        · exact .inl ⟨ds', z, h5, h2, h6⟩
        · exact .inr ⟨⟨j, h5⟩, haf h6⟩
      | read =>
        rw [hfin] at h3
        obtain ⟨J, hj, hJ⟩ := h3
        dsimp only
        rw [if_neg (by simp [ho]), if_neg (by simp [ho])]
        rcases readLoop_sound h hJ (m.avail s' + 1) s' ds e (by omega) hj hr with ⟨ds', h5, h6⟩ | ⟨⟨j, h5⟩, h6⟩
        · exact .inl ⟨ds', z, h5, h2, h6⟩
        · exact .inr ⟨⟨j, h5⟩, haf h6⟩

/-- The relation for a module in front of a chain. -/
def Over (I : m.σ → Bytes → Bytes → Prop) (R : D.St → Bytes → Prop) (y : Node m.σ × D.St) (x : Bytes) : Prop :=
  y.1.ended = false ∧ y.1.obuf = [] ∧ ∃ e, I y.1.st x e ∧ R y.2 e

theorem attach_sound (h : Sound D R F) (hl : Law m I den) (i : Nat) : Sound (attach i m D) (Over I R) (after den F) := by
  constructor
  · rintro ⟨n, ds⟩ x b ⟨h1, h2, e, hi, hr⟩
    dsimp only at h1 h2 hi hr
    have hw : (attach i m D).write (n, ds) b = doWrite i m D n ds b := by
      show (if n.ended = true then _ else _) = _
      rw [h1]; rfl
    rw [hw]
    unfold doWrite
    rw [h2]
    have hfl : flushBuf D [] ds = .ok ([], ds) := rfl
    rw [hfl]
    simp only [ne_eq, not_true_eq_false, if_false]
    rcases preTransform_sound h hl n.st ds x e hi hr with ⟨s', b', ds', e', p1, p2, p3⟩ | ⟨⟨j, p1⟩, p2⟩
    · rw [p1]
      dsimp only
      rcases flushBuf_sound h ds' e' b' p3 with ⟨ds'', q1, q2⟩ | ⟨⟨j, q1⟩, q2⟩
      · rw [q1]
        simp only [not_true_eq_false, if_false]
        rcases hl.convert s' x _ b p2 with ⟨s'', o, r1, r2⟩ | ⟨r1, r2⟩
        · rw [r1]
          dsimp only
          rcases flushBuf_sound h ds'' _ o q2 with ⟨ds3, t1, t2⟩ | ⟨⟨j, t1⟩, t2⟩
          · rw [t1]
            exact .inl ⟨_, rfl, h1, rfl, _, r2, t2⟩
          · rw [t1]
            exact .inr ⟨⟨j, rfl⟩, after_none hl r2 t2⟩
        · rw [r1]
          refine .inr ⟨⟨i, rfl⟩, fun y => ?_⟩
          unfold after; rw [r2 y]
      · rw [q1]
        refine .inr ⟨⟨j, rfl⟩, fun y => ?_⟩
        have := after_none hl p2 q2 (b ++ y)
        rw [← List.append_assoc] at this
        exact this
    · rw [p1]
      refine .inr ⟨⟨j, rfl⟩, fun y => ?_⟩
      have := p2 (b ++ y)
      rw [← List.append_assoc] at this
      exact this
  · rintro ⟨n, ds⟩ x ⟨h1, h2, e, hi, hr⟩
    dsimp only at h1 h2 hi hr
    have hw : (attach i m D).fin (n, ds) = (match finalize i m D n ds with
      | .error e => .error e
      | .ok ds => match D.fin ds with
        | .error e => .error e
        | .ok ds' => .ok ({ n with ended := true }, ds')) := by
      show (if n.ended = true then _ else _) = _
      rw [h1]; rfl
    rw [hw]
    rcases finalize_sound h hl i n ds x e h2 hi hr with ⟨ds', z, p1, p2, p3⟩ | ⟨⟨j, p1⟩, p2⟩
    · rw [p1]
      dsimp only
      rcases h.fin ds' z p3 with ⟨ds'', v, q1, q2, q3, -⟩ | ⟨⟨j, q1⟩, q2⟩
      · rw [q1]
        refine .inl ⟨_, v, rfl, ?_, q3, fun b => ⟨i, rfl⟩, rfl⟩
        unfold after; rw [p2]; exact q2
      · rw [q1]
        refine .inr ⟨⟨j, rfl⟩, ?_⟩
        unfold after; rw [p2]; exact q2
    · rw [p1]
      exact .inr ⟨⟨j, rfl⟩, p2⟩
  · rintro ⟨n, ds⟩ x ⟨h1, h2, e, hi, hr⟩
    exact h.unended ds e hr

end attach

/-! ### The modules -/

theorem hexEncode_law (u : Bool) : Law (hexEncodeMod u) (fun _ x e => e = Hex.hexEncode u x) (fun x => some (Hex.hexEncode u x)) where
  init := rfl
  fill := by intro s x e h; exact ⟨by simpa [hexEncodeMod] using h, rfl⟩
  convert := by
    intro s x e b h
    exact .inl ⟨s, Hex.hexEncode u b, rfl, by rw [h]; simp [Hex.hexEncode]⟩
  mono := by
    intro s x e y z h hz
    injection hz with hz
    subst h hz
    exact ⟨Hex.hexEncode u y, by simp [Hex.hexEncode]⟩
  close := by intro s x e h; exact .inr ⟨s, none, _, rfl, rfl, h.symm⟩

theorem stripSpace_law (ws : UInt8 → Bool) : Law (stripSpaceMod ws) (fun _ x e => e = x.filter (fun c => !ws c))
    (fun x => some (x.filter (fun c => !ws c))) where
  init := rfl
  fill := by intro s x e h; exact ⟨by simpa [stripSpaceMod] using h, rfl⟩
  convert := by
    intro s x e b h
    exact .inl ⟨s, Hex.stripSpace ws b, rfl, by rw [h]; simp [Hex.stripSpace]⟩
  mono := by
    intro s x e y z h hz
    injection hz with hz
    subst h hz
    exact ⟨y.filter (fun c => !ws c), by simp⟩
  close := by intro s x e h; exact .inr ⟨s, none, _, rfl, rfl, h.symm⟩

theorem context_law (f : Bytes → Option Bytes) : Law (contextMod f) (fun s x e => s = x ∧ e = []) f where
  init := ⟨rfl, rfl⟩
  fill := by intro s x e h; exact ⟨by simpa [contextMod] using h, rfl⟩
  convert := by
    intro s x e b h
    exact .inl ⟨List.append (α := UInt8) s b, [], rfl, by rw [h.1]; rfl, by simp [h.2]⟩
  mono := by intro s x e y z h _; rw [h.2]; exact List.nil_prefix
  close := by
    rintro s x e ⟨rfl, rfl⟩
    cases h : f s with
    | none => exact .inl ⟨by simp [contextMod, h], rfl⟩
    | some r => exact .inr ⟨s, some r, r, by simp [contextMod, h], rfl, rfl⟩

theorem hexPairs_none (d y : Bytes) (h : Hex.hexPairs d = none) : Hex.hexPairs (d ++ y) = none := by
  by_cases he : d.length % 2 = 0
  · rw [Hex.hexPairs_append d y he, h]; rfl
  · obtain ⟨t, a, rfl, ht, -⟩ := Hex.odd_split d (by omega)
    rw [Hex.hexPairs_odd t a ht] at h
    rw [List.append_assoc, Hex.hexPairs_append t _ ht, h]; rfl

theorem fromHex_eq (x : Bytes) : Hex.fromHex x = if x.length % 2 = 1 then none else Hex.hexPairs x := by
  unfold Hex.fromHex
  rw [Hex.hexDecodeChunks_spec]
  simp [Hex.oddList]

theorem hexDecode_law : Law hexDecodeMod (fun odd x e => ∃ p, x = p ++ Hex.oddList odd ∧ p.length % 2 = 0 ∧ Hex.hexPairs p = some e) Hex.fromHex where
  init := ⟨[], rfl, rfl, rfl⟩
  fill := by intro s x e h; exact ⟨by simpa [hexDecodeMod] using h, rfl⟩
  convert := by
    rintro odd x e b ⟨p, rfl, hp, he⟩
    have hc : hexDecodeMod.convert odd b = (Hex.hexConvert odd b).map (fun r => (r.1, r.2, b.length)) := rfl
    have hs := Hex.hexConvert_spec (show Option UInt8 from odd) b
    rw [hc, show Hex.hexConvert odd b = _ from hs]
    have hassoc : ∀ y, p ++ Hex.oddList odd ++ b ++ y = p ++ (Hex.oddList odd ++ b ++ y) := by intro y; simp
    have hassoc0 : p ++ Hex.oddList odd ++ b = p ++ (Hex.oddList odd ++ b) := by simp
    generalize Hex.oddList odd ++ b = d at hassoc hassoc0
    cases hd : Hex.hexPairs d with
    | none =>
      refine .inr ⟨rfl, fun y => ?_⟩
      rw [hassoc, fromHex_eq]
      split
      · rfl
      · rw [Hex.hexPairs_append p _ hp, hexPairs_none d y hd, he]; rfl
    | some out =>
      refine .inl ⟨_, out, rfl, ?_⟩
      by_cases ho : d.length % 2 = 1
      · obtain ⟨t, a, rfl, ht, hlast⟩ := Hex.odd_split d ho
        rw [Hex.hexPairs_odd t a ht] at hd
        refine ⟨p ++ t, ?_, by simp; omega, ?_⟩
        · rw [hassoc0, if_pos ho, hlast]; simp [Hex.oddList]
        · rw [Hex.hexPairs_append p t hp, he, hd]; rfl
      · refine ⟨p ++ d, ?_, by simp; omega, ?_⟩
        · rw [hassoc0, if_neg ho]; simp [Hex.oddList]
        · rw [Hex.hexPairs_append p d hp, he, hd]; rfl
  mono := by
    rintro odd x e y z ⟨p, rfl, hp, he⟩ hz
    rw [fromHex_eq] at hz
    split at hz
    · cases hz
    · rw [List.append_assoc, Hex.hexPairs_append p _ hp, he] at hz
      simp only [Option.bind_some, Option.map_eq_some_iff] at hz
      obtain ⟨w, -, rfl⟩ := hz
      exact ⟨w, rfl⟩
  close := by
    rintro odd x e ⟨p, rfl, hp, he⟩
    cases odd with
    | none =>
      refine .inr ⟨none, none, e, rfl, ?_, rfl⟩
      rw [fromHex_eq, if_neg (by simp [Hex.oddList]; omega)]
      simpa [Hex.oddList] using he
    | some a =>
      refine .inl ⟨rfl, ?_⟩
      rw [fromHex_eq, if_pos (by simp [Hex.oddList]; omega)]

theorem take_of_prefix {a b : Bytes} {k : Nat} (h : a <+: b) (hk : k ≤ a.length) : a.take k = b.take k := by
  obtain ⟨c, rfl⟩ := h
  rw [List.take_append_of_le_length hk]

/-- Reading on. -/
theorem read_on (w : Bytes) (r j : Nat) (hr : r ≤ w.length) :
    w.take r ++ (w.drop r).take j = w.take (r + ((w.drop r).take j).length) ∧ r + ((w.drop r).take j).length ≤ w.length ∧
    (w.drop (r + ((w.drop r).take j).length)).length + ((w.drop r).take j).length = (w.drop r).length := by
  have hl : ((w.drop r).take j).length = min j (w.length - r) := by simp
  refine ⟨?_, by omega, by simp only [List.length_drop]; omega⟩
  rw [hl, List.take_add]
  congr 1
  rw [List.take_eq_take_iff]
  simp

/-- What is known of a BIO before the input is complete. -/
def BioInv (e : Engine) (s : BioSt) (x o : Bytes) : Prop :=
  s.done = false ∧ s.seen = x ∧ s.read ≤ (e.out x).length ∧ o = (e.out x).take s.read

/-- And after. -/
def BioEnd (x z : Bytes) (s : BioSt) (o : Bytes) : Prop := s.done = true ∧ s.seen = x ∧ s.read ≤ z.length ∧ o = z.take s.read

theorem bio_mono {e : Engine} (he : Lawful e) {s : BioSt} {x o y z : Bytes} (h : BioInv e s x o) (hz : e.final (x ++ y) = some z) : o <+: z := by
  obtain ⟨-, -, -, rfl⟩ := h
  exact ((List.take_prefix _ _).trans (he.mono x y)).trans (he.final _ _ hz)

theorem bio_rest {e : Engine} {s : BioSt} {x o : Bytes} (h : BioInv e s x o) : s.rest e = (e.out x).drop s.read := by
  unfold BioSt.rest
  rw [h.1, h.2.1]; rfl

theorem bioEnd_rest {e : Engine} {s : BioSt} {x z o : Bytes} (hz : e.final x = some z) (h : BioEnd x z s o) : s.rest e = z.drop s.read := by
  unfold BioSt.rest
  rw [h.1, h.2.1, hz]; rfl

theorem bio_fill {e : Engine} {s : BioSt} {x o : Bytes} (j : Nat) (h : BioInv e s x o) :
    BioInv e { s with read := s.read + ((s.rest e).take j).length } x (o ++ (s.rest e).take j) ∧
    (BioSt.rest e { s with read := s.read + ((s.rest e).take j).length }).length + ((s.rest e).take j).length = (s.rest e).length := by
  have hr := bio_rest h
  obtain ⟨h1, h2, h3, h4⟩ := h
  obtain ⟨r1, r2, r3⟩ := read_on (e.out x) s.read j h3
  rw [hr]
  have hinv : BioInv e { s with read := s.read + (((e.out x).drop s.read).take j).length } x (o ++ ((e.out x).drop s.read).take j) :=
    ⟨h1, h2, r2, by rw [h4]; exact r1⟩
  refine ⟨hinv, ?_⟩
  rw [bio_rest hinv]
  exact r3

theorem bioEnd_fill {e : Engine} {s : BioSt} {x z o : Bytes} (j : Nat) (hj : 0 < j) (hz : e.final x = some z) (h : BioEnd x z s o) :
    BioEnd x z { s with read := s.read + ((s.rest e).take j).length } (o ++ (s.rest e).take j) ∧
    ((s.rest e).take j = [] → o = z) ∧ o ++ (s.rest e).take j <+: z ∧
    (BioSt.rest e { s with read := s.read + ((s.rest e).take j).length }).length + ((s.rest e).take j).length = (s.rest e).length := by
  have hr := bioEnd_rest hz h
  obtain ⟨h1, h2, h3, h4⟩ := h
  obtain ⟨r1, r2, r3⟩ := read_on z s.read j h3
  rw [hr]
  have hinv : BioEnd x z { s with read := s.read + ((z.drop s.read).take j).length } (o ++ (z.drop s.read).take j) :=
    ⟨h1, h2, r2, by rw [h4]; exact r1⟩
  refine ⟨hinv, ?_, ?_, ?_⟩
  · intro hn
    have : (z.drop s.read).length = 0 := by
      have := congrArg List.length hn
      simp only [List.length_take, List.length_nil, List.length_drop] at this ⊢
      omega
    simp only [List.length_drop] at this
    rw [h4]
    exact List.take_of_length_le (by omega)
  · rw [h4, r1]
    exact List.take_prefix _ _
  · rw [bioEnd_rest hz hinv]
    exact r3

theorem bio_more {e : Engine} (he : Lawful e) {s : BioSt} {x o : Bytes} (b : Bytes) (h : BioInv e s x o) :
    BioInv e { s with seen := s.seen ++ b } (x ++ b) o := by
  obtain ⟨h1, h2, h3, h4⟩ := h
  have hp := he.mono x b
  refine ⟨h1, by rw [h2], Nat.le_trans h3 hp.length_le, ?_⟩
  rw [h4]
  exact take_of_prefix hp h3

theorem bio_law {e : Engine} (he : Lawful e) : Law (bioMod e) (BioInv e) e.final where
  init := ⟨rfl, rfl, Nat.zero_le _, rfl⟩
  fill := by
    intro s x o h
    have := bio_fill (s.rest e).length h
    rw [List.take_length] at this
    exact this
  convert := by
    intro s x o b h
    by_cases hb : b = []
    · subst hb
      exact .inl ⟨s, [], rfl, by simpa using h⟩
    have h1 := bio_more he b h
    have h2 := bio_fill (BioSt.rest e { s with seen := s.seen ++ b }).length h1
    rw [List.take_length] at h2
    refine .inl ⟨_, _, ?_, h2.1⟩
    cases b with
    | nil => exact absurd rfl hb
    | cons c b => rfl
  mono := fun s x o y z h hz => bio_mono he h hz
  close := by
    intro s x o h
    cases hz : e.final x with
    | none =>
      refine .inl ⟨?_, rfl⟩
      show (match e.final s.seen with | none => none | some _ => _) = none
      rw [h.2.1, hz]
    | some z =>
      have hpre := bio_mono (y := []) he h (by simpa using hz)
      refine .inr ⟨{ s with done := true }, none, z, ?_, rfl, ?_⟩
      · show (match e.final s.seen with | none => none | some _ => _) = _
        rw [h.2.1, hz]
        rfl
      · refine ⟨BioEnd x z, ⟨rfl, h.2.1, ?_, ?_⟩, ?_⟩
        · exact Nat.le_trans h.2.2.1 (he.final x z hz).length_le
        · rw [h.2.2.2]
          exact take_of_prefix (he.final x z hz) h.2.2.1
        · intro t o' ht
          cases hrest : (BioSt.rest e t) with
          | nil =>
            have h1 := bioEnd_fill 1 (by omega) hz ht
            rw [hrest] at h1
            show BioEnd x z { t with read := t.read + (BioSt.rest e t).length } (o' ++ BioSt.rest e t) ∧ (BioSt.rest e t = [] → o' = z) ∧
              o' ++ BioSt.rest e t <+: z ∧ (BioSt.rest e { t with read := t.read + (BioSt.rest e t).length }).length + (BioSt.rest e t).length =
              (BioSt.rest e t).length
            rw [hrest]
            exact h1
          | cons c l =>
            have h1 := bioEnd_fill (BioSt.rest e t).length (by rw [hrest]; simp) hz ht
            rw [List.take_length] at h1
            exact h1

theorem bioDecode_law {e : Engine} (he : Lawful e) (ht : ∀ x, (e.final x).isSome) : Law (bioDecodeMod e) (BioInv e) e.final where
  init := ⟨rfl, rfl, Nat.zero_le _, rfl⟩
  fill := fun s x o h => bio_fill 1024 h
  convert := by
    intro s x o b h
    exact .inl ⟨{ s with seen := s.seen ++ b }, [], rfl, by simpa using bio_more he b h⟩
  mono := fun s x o y z h hz => bio_mono he h hz
  close := by
    intro s x o h
    obtain ⟨z, hz⟩ := Option.isSome_iff_exists.1 (ht x)
    refine .inr ⟨{ s with done := true }, none, z, rfl, hz, BioEnd x z, ⟨rfl, h.2.1, ?_, ?_⟩, ?_⟩
    · exact Nat.le_trans h.2.2.1 (he.final x z hz).length_le
    · rw [h.2.2.2]
      exact take_of_prefix (he.final x z hz) h.2.2.1
    · exact fun t o' ht => bioEnd_fill 1024 (by omega) hz ht

theorem computes_law {m : Mod} {f : Bytes → Option Bytes} (h : Computes m f) : ∃ I, Law m I f := by
  cases h with
  | hexEncode u => exact ⟨_, hexEncode_law u⟩
  | hexDecode => exact ⟨_, hexDecode_law⟩
  | stripSpace ws => exact ⟨_, stripSpace_law ws⟩
  | context f => exact ⟨_, context_law f⟩
  | bio he => exact ⟨_, bio_law he⟩
  | bioDecode he ht => exact ⟨_, bioDecode_law he ht⟩

/-! ### Sinks and chains -/

theorem sink_write_nil (v : SinkVal) : v.write [] = v := by cases v <;> simp [SinkVal.write]

theorem sink_write_append (v : SinkVal) (a b : Bytes) : (v.write a).write b = v.write (a ++ b) := by
  cases v with
  | stream o k => simp [SinkVal.write]
  | bool x has =>
    cases a with
    | nil => simp [SinkVal.write]
    | cons c a => cases has <;> cases b <;> simp [SinkVal.write]

theorem sink_sound (v : SinkVal) (i : Nat) :
    Sound (sinkIface i) (fun s x => s = (⟨v.write x, false⟩ : SinkSt)) (fun x => some ((v.write x).fin)) where
  write := by
    rintro s x b rfl
    exact .inl ⟨⟨(v.write x).write b, false⟩, rfl, by rw [sink_write_append]⟩
  fin := by
    rintro s x rfl
    exact .inl ⟨⟨(v.write x).fin, true⟩, _, rfl, rfl, rfl, fun b => ⟨i, rfl⟩, rfl⟩
  unended := by rintro s x rfl; rfl

/-- All modules of a pipeline compute the functions beside them. -/
abbrev Pipeline := List (Mod × (Bytes → Option Bytes))

theorem chain_sound (v : SinkVal) (ps : Pipeline) (h : ∀ p ∈ ps, Computes p.1 p.2) (i : Nat) :
    ∃ R, Sound (chain i (ps.map (·.1))) R (fun x => (through ps x).map (fun y => (v.write y).fin)) ∧ R (chainInit v i (ps.map (·.1))) [] := by
  induction ps generalizing i with
  | nil => exact ⟨_, sink_sound v i, by show _ = _; rw [sink_write_nil]; rfl⟩
  | cons p ps ih =>
    obtain ⟨R, h1, h2⟩ := ih (fun q hq => h q (List.mem_cons_of_mem _ hq)) (i + 1)
    obtain ⟨I, hl⟩ := computes_law (h p List.mem_cons_self)
    refine ⟨Over I R, ?_, rfl, rfl, [], hl.init, h2⟩
    have := attach_sound h1 hl i
    have hF : after p.2 (fun x => (through ps x).map (fun y => (v.write y).fin)) = fun x => (through (p :: ps) x).map (fun y => (v.write y).fin) := by
      funext x
      simp only [after, through]
      cases p.2 x <;> rfl
    rw [hF] at this
    exact this

/-! ### Sources -/

variable {D : Iface} {R : D.St → Bytes → Prop} {F : Bytes → Option SinkVal}

theorem pumpOne_sound (h : Sound D R F) (s : D.St) (x b : Bytes) (hr : R s x) :
    (∃ s', pumpOne D b.length s b = .ok s' ∧ R s' (x ++ b)) ∨
    ((∃ i, pumpOne D b.length s b = .error (.refused i)) ∧ ∀ y, F (x ++ b ++ y) = none) := by
  cases b with
  | nil => exact .inl ⟨s, by simp [pumpOne], by simpa using hr⟩
  | cons c b =>
    simp only [List.length_cons, pumpOne, reduceCtorEq, if_false]
    rcases h.write s x (c :: b) hr with ⟨s', h1, h2⟩ | ⟨⟨i, h1⟩, h2⟩
    · rw [h1]
      refine .inl ⟨s', ?_, h2⟩
      cases b <;> simp [pumpOne]
    · rw [h1]
      exact .inr ⟨⟨i, rfl⟩, h2⟩

theorem pump_sound (h : Sound D R F) (bs : List Bytes) (s : D.St) (x : Bytes) (hr : R s x) :
    (∃ s' v, pump D s bs = .ok s' ∧ F (x ++ bs.flatten) = some v ∧ D.sink s' = ⟨v, true⟩) ∨
    ((∃ i, pump D s bs = .error (.refused i)) ∧ F (x ++ bs.flatten) = none) := by
  induction bs generalizing s x with
  | nil =>
    simp only [pump, List.flatten_nil, List.append_nil]
    rcases h.fin s x hr with ⟨s', v, h1, h2, h3, -⟩ | h
    · exact .inl ⟨s', v, h1, h2, h3⟩
    · exact .inr h
  | cons b bs ih =>
    simp only [pump, List.flatten_cons]
    rcases pumpOne_sound h s x b hr with ⟨s', h1, h2⟩ | ⟨⟨i, h1⟩, h2⟩
    · rw [h1]
      have := ih s' (x ++ b) h2
      rw [List.append_assoc] at this
      exact this
    · rw [h1]
      have := h2 bs.flatten
      rw [List.append_assoc] at this
      exact .inr ⟨⟨i, rfl⟩, this⟩

/-- What is left to do for a stream. -/
def todo (buf : Bytes) (is : IStream) (bad : Bool) : Nat :=
  2 * is.rest.length + (if buf = [] then 0 else 1) + (if is.eof || bad then 0 else 2) + 1

theorem streamPump_sound (h : Sound D R F) (k : Nat) (hk : 0 < k) (f : Nat) (s : D.St) (x buf : Bytes) (is : IStream) (hf : todo buf is false ≤ f)
    (he : is.eof = true → is.rest = []) (hb : is.breaks = false) (hr : R s x) :
    (∃ s' v, streamPump D k f s buf is false = .ok s' ∧ F (x ++ buf ++ is.rest) = some v ∧ D.sink s' = ⟨v, true⟩) ∨
    ((∃ i, streamPump D k f s buf is false = .error (.refused i)) ∧ F (x ++ buf ++ is.rest) = none) := by
  induction f generalizing s x buf is with
  | zero => simp [todo] at hf
  | succ f ih =>
    simp only [streamPump]
    by_cases hbuf : buf = []
    · subst hbuf
      simp only [ne_eq, not_true_eq_false, if_false, List.append_nil]
      by_cases heof : is.eof = true
      · rw [if_pos heof, he heof, List.append_nil]
        rcases h.fin s x hr with ⟨s', v, h1, h2, h3, -⟩ | h
        · exact .inl ⟨s', v, h1, h2, h3⟩
        · exact .inr h
      · rw [if_neg heof]
        simp only [Bool.false_eq_true, if_false, hb]
        have heof' : is.eof = false := by simpa using heof
        by_cases hl : (is.rest.take k).length < k
        · rw [if_pos hl]
          have hlen : is.rest.length < k := by rw [List.length_take] at hl; omega
          have htk : is.rest.take k = is.rest := List.take_of_length_le (by omega)
          rw [htk]
          have := ih s x is.rest { rest := [], eof := true, breaks := false } (by
            simp only [todo, heof', Bool.or_false] at hf ⊢
            simp only [List.length_nil, if_true, Bool.false_eq_true, if_false] at hf ⊢
            split <;> omega) (fun _ => rfl) rfl hr
          simpa using this
        · rw [if_neg hl]
          have hlen : k ≤ is.rest.length := by rw [List.length_take] at hl; omega
          have := ih s x (is.rest.take k) { rest := is.rest.drop k, eof := is.eof, breaks := false } (by
            simp only [todo, heof', Bool.or_false, List.length_drop] at hf ⊢
            simp only [if_true, Bool.false_eq_true, if_false] at hf ⊢
            split <;> omega) (fun h => absurd h heof) rfl hr
          simpa [List.append_assoc, List.take_append_drop] using this
    · rw [if_pos hbuf]
      rcases h.write s x buf hr with ⟨s', h1, h2⟩ | ⟨⟨i, h1⟩, h2⟩
      · rw [h1]
        simp only [drop_length]
        have := ih s' (x ++ buf) [] is (by
          simp only [todo, hbuf, if_false, if_true] at hf ⊢
          omega) he hb h2
        rw [List.append_nil] at this
        exact this
      · rw [h1]
        exact .inr ⟨⟨i, rfl⟩, h2 _⟩

theorem streamPump_bad (h : Sound D R F) (k : Nat) (hk : 0 < k) (f : Nat) (s : D.St) (x buf : Bytes) (is : IStream) (bad : Bool)
    (hf : todo buf is bad ≤ f) (he : is.eof = false) (hb : is.breaks = true) (hr : R s x) :
    ∃ e, streamPump D k f s buf is bad = .error e ∧ (e = .badStream ∨ ((∃ i, e = .refused i) ∧ ∀ y, F (x ++ buf ++ is.rest ++ y) = none)) := by
  induction f generalizing s x buf is bad with
  | zero => simp [todo] at hf
  | succ f ih =>
    simp only [streamPump]
    by_cases hbuf : buf = []
    · subst hbuf
      simp only [ne_eq, not_true_eq_false, if_false, List.append_nil, he, Bool.false_eq_true]
      cases bad with
      | true => exact ⟨_, rfl, .inl rfl⟩
      | false =>
        simp only [Bool.false_eq_true, if_false, hb, if_true]
        by_cases hl : (is.rest.take k).length < k
        · rw [if_pos hl]
          have htk : is.rest.take k = is.rest := List.take_of_length_le (by rw [List.length_take] at hl; omega)
          rw [htk]
          have := ih s x is.rest { rest := [], eof := false, breaks := true } true (by
            simp only [todo, he, Bool.or_false] at hf ⊢
            simp only [List.length_nil, if_true, Bool.false_eq_true, if_false, Bool.or_true] at hf ⊢
            split <;> omega) rfl rfl hr
          simpa using this
        · rw [if_neg hl]
          have hlen : k ≤ is.rest.length := by rw [List.length_take] at hl; omega
          have := ih s x (is.rest.take k) { rest := is.rest.drop k, eof := false, breaks := true } false (by
            simp only [todo, he, Bool.or_false, List.length_drop] at hf ⊢
            simp only [if_true, Bool.false_eq_true, if_false] at hf ⊢
            split <;> omega) rfl rfl hr
          rw [List.append_assoc x, List.take_append_drop] at this
          exact this
    · rw [if_pos hbuf]
      rcases h.write s x buf hr with ⟨s', h1, h2⟩ | ⟨⟨i, h1⟩, h2⟩
      · rw [h1]
        simp only [drop_length]
        have := ih s' (x ++ buf) [] is bad (by
          simp only [todo, hbuf, if_false, if_true] at hf ⊢
          omega) he hb h2
        rw [List.append_nil] at this
        exact this
      · rw [h1]
        exact ⟨_, rfl, .inr ⟨⟨i, rfl⟩, fun y => by rw [List.append_assoc _ is.rest]; exact h2 _⟩⟩

theorem outOf_ok {D : Iface} {s : D.St} {out : Bytes} {n : Nat} {e : Bool} (h : D.sink s = ⟨.stream out n, e⟩) :
    outOf ((Except.ok s : Except Err D.St).map D.sink) = .ok out := by
  show outOf (.ok (D.sink s)) = _
  rw [h]; rfl

theorem through_stream {ps : Pipeline} {x : Bytes} {v : SinkVal}
    (h : (through ps x).map (fun y => ((SinkVal.stream [] 0).write y).fin) = some v) : ∃ out, through ps x = some out ∧ v = .stream out 1 := by
  cases ht : through ps x with
  | none => rw [ht] at h; cases h
  | some out =>
    rw [ht] at h
    injection h with h
    exact ⟨out, rfl, by rw [← h]; simp [SinkVal.write, SinkVal.fin]⟩

end Ndn.Pipe
