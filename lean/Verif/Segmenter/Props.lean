import Verif.Segmenter.Model
import Verif.Name.EditProps
/-
C38: segmentation.
-/
namespace Ndn.Segmenter
open Ndn.Packet Ndn.Name

namespace Spec

/-- The number of segments: one, or the size divided by the maximum, rounded up. -/
def count (len maxSize : Nat) : Nat := max 1 ((len + maxSize - 1) / maxSize)

/-- Segment `i` of the input: the octets from `i * maxSize` on, at most `maxSize`. -/
def chunk (buffer : Bytes) (maxSize i : Nat) : Bytes := (buffer.drop (i * maxSize)).take maxSize

/-- The unsigned packet of segment `i`. -/
def packet (marker : Bool) (name : List Comp) (contentType freshness : Nat) (k i : Nat) (content : Option Bytes) : DFields :=
  { name := name ++ [Name.Spec.convComp marker .segment i]
    minfo := ⟨contentType, freshness, some (Name.Spec.convComp marker .segment k), []⟩
    content := content.map (binaryBlock 21)
    sigInfo := SigInfo.init
    sigValue := none }

/-- A packet with the signature of the key chain. -/
def IsSigned (p : Params) (unsigned d : DFields) : Prop :=
  ∃ si sv, p.sign unsigned = some (si, sv) ∧ d = { unsigned with sigInfo := si, sigValue := some (binaryBlock 23 sv) }

end Spec

theorem mk_pre (name : List Comp) (c : Comp) (ct : Nat) (fr : Int) (rest : List DOp) :
    calls (.init []) (.setName (name ++ [c]) :: .setContentType ct :: .setFreshness fr :: rest) =
      if fr < 0 then none
      else calls ⟨⟨name ++ [c], ⟨ct, fr.toNat, none, []⟩, none, SigInfo.init, none⟩, none, []⟩ rest := by
  have h1 : (DObj.init []).step (fun b => b) (.setName (name ++ [c])) =
      (true, ⟨⟨name ++ [c], ⟨0, 0, none, []⟩, none, SigInfo.init, none⟩, none, []⟩) := by
    have : name ++ [c] ≠ [] := by simp
    simp only [DObj.step, DObj.init, ne_eq, this, not_false_eq_true, if_true, DObj.reset, MetaInfo.init]
  have h2 : DObj.step (fun b => b) ⟨⟨name ++ [c], ⟨0, 0, none, []⟩, none, SigInfo.init, none⟩, none, []⟩ (.setContentType ct) =
      (true, ⟨⟨name ++ [c], ⟨ct, 0, none, []⟩, none, SigInfo.init, none⟩, none, []⟩) := by
    simp only [DObj.step, DObj.reset]
    by_cases h : ct = 0
    · subst h; simp
    · simp [h]
  have h3 : DObj.step (fun b => b) ⟨⟨name ++ [c], ⟨ct, 0, none, []⟩, none, SigInfo.init, none⟩, none, []⟩ (.setFreshness fr) =
      if fr < 0 then (false, ⟨⟨name ++ [c], ⟨ct, 0, none, []⟩, none, SigInfo.init, none⟩, none, []⟩)
      else (true, ⟨⟨name ++ [c], ⟨ct, fr.toNat, none, []⟩, none, SigInfo.init, none⟩, none, []⟩) := by
    simp only [DObj.step, DObj.reset, MetaInfo.getFreshness]
    by_cases h : fr = 0
    · subst h; simp
    · simp [h]
  simp only [calls, h1, h2, h3, if_true]
  by_cases h : fr < 0
  · simp [h]
  · simp [h]

theorem mk_eq (p : Params) (name : List Comp) (i ct : Nat) (fr : Int) (rest : List DOp) :
    mk p name i ct fr rest = if fr < 0 then none
      else (calls ⟨⟨name ++ [Name.Spec.convComp p.settings.encodeMarker .segment i], ⟨ct, fr.toNat, none, []⟩, none,
        SigInfo.init, none⟩, none, []⟩ rest).map DObj.f := by
  unfold mk
  rw [Conv.from_eq]
  simp only [Option.bind_some]
  rw [mk_pre]
  split <;> rfl

theorem mk_span (p : Params) (name : List Comp) (i ct k : Nat) (fr : Int) (v : Bytes) :
    mk p name i ct fr [.setFinalBlock (some (Name.Spec.convComp p.settings.encodeMarker .segment k)), .setContent v] =
      if fr < 0 then none
      else some (Spec.packet p.settings.encodeMarker name ct fr.toNat k i (some v)) := by
  rw [mk_eq]
  split
  · rfl
  · simp [calls, DObj.step, DObj.reset, Spec.packet]

theorem mk_stream (p : Params) (name : List Comp) (i ct : Nat) (fr : Int) (v : Bytes) :
    mk p name i ct fr [.setContent v] = if fr < 0 then none
      else some { Spec.packet p.settings.encodeMarker name ct fr.toNat 0 i (some v) with minfo := ⟨ct, fr.toNat, none, []⟩ } := by
  rw [mk_eq]
  split
  · rfl
  · simp [calls, DObj.step, DObj.reset, Spec.packet]

theorem mk_empty (p : Params) (name : List Comp) (i ct : Nat) (fr : Int) :
    mk p name i ct fr [] = if fr < 0 then none
      else some { Spec.packet p.settings.encodeMarker name ct fr.toNat 0 i none with minfo := ⟨ct, fr.toNat, none, []⟩ } := by
  rw [mk_eq]
  split
  · rfl
  · simp [calls, Spec.packet]

/-- Signing a list of packets in order. -/
def signAll (p : Params) : List DFields → Option (List DFields)
  | [] => some []
  | d :: l => (signed p d).bind fun d => (signAll p l).map (d :: ·)

/-- The packets of the rest of the input from segment `i` on. -/
def packets (p : Params) (name : List Comp) (ct fr k : Nat) : List Bytes → Nat → List DFields
  | [], _ => []
  | c :: cs, i => Spec.packet p.settings.encodeMarker name ct fr k i (some c) :: packets p name ct fr k cs (i + 1)

/-- The pieces of a non-empty input. -/
def pieces (m : Nat) : Nat → Bytes → List Bytes
  | 0, _ => []
  | fuel + 1, b => if b = [] then [] else b.take m :: pieces m fuel (b.drop m)

theorem loop_eq (p : Params) (name : List Comp) (m ct k : Nat) (fr : Int) (hm : 0 < m) (hfr : 0 ≤ fr) :
    ∀ (fuel : Nat) (b : Bytes) (i : Nat), b.length < fuel →
      loop p name m ct fr (Name.Spec.convComp p.settings.encodeMarker .segment k) fuel b i =
        signAll p (packets p name ct fr.toNat k (if b = [] then [[]] else pieces m fuel b) i) := by
  intro fuel
  induction fuel with
  | zero => intro b i h; omega
  | succ fuel ih =>
    intro b i h
    have e1 : b.take (min b.length m) = b.take m := by
      by_cases hb : b.length ≤ m
      · rw [Nat.min_eq_left hb, List.take_of_length_le (Nat.le_refl _), List.take_of_length_le hb]
      · rw [Nat.min_eq_right (by omega)]
    have e2 : b.drop (min b.length m) = b.drop m := by
      by_cases hb : b.length ≤ m
      · rw [Nat.min_eq_left hb, List.drop_of_length_le (Nat.le_refl _), List.drop_of_length_le hb]
      · rw [Nat.min_eq_right (by omega)]
    simp only [loop, e1, e2, mk_span]
    rw [if_neg (by omega)]
    simp only [Option.bind_some]
    by_cases hb : b = []
    · subst hb
      simp only [List.take_nil, List.drop_nil, if_true, packets, signAll]
      cases signed p (Spec.packet p.settings.encodeMarker name ct fr.toNat k i (some [])) <;> rfl
    · have hlen := List.length_pos_iff.mpr hb
      rw [if_neg hb]
      simp only [pieces, hb, if_false, packets, signAll]
      congr 1
      funext d
      by_cases hd : b.drop m = []
      · rw [if_pos hd, hd]
        have : pieces m fuel [] = [] := by cases fuel <;> simp [pieces]
        simp [this, packets, signAll]
      · rw [if_neg hd, ih _ _ (by rw [List.length_drop]; omega), if_neg hd]

theorem pieces_length (m : Nat) (hm : 0 < m) : ∀ (fuel : Nat) (b : Bytes), b.length < fuel →
    (pieces m fuel b).length = (b.length + m - 1) / m := by
  intro fuel
  induction fuel with
  | zero => intro b h; omega
  | succ fuel ih =>
    intro b h
    unfold pieces
    by_cases hb : b = []
    · subst hb
      simp
      rw [Nat.div_eq_of_lt (by omega)]
    · have hlen := List.length_pos_iff.mpr hb
      rw [if_neg hb, List.length_cons, ih _ (by rw [List.length_drop]; omega), List.length_drop]
      by_cases hle : b.length ≤ m
      · have e1 : b.length - m + m - 1 = m - 1 := by omega
        rw [e1, Nat.div_eq_of_lt (by omega)]
        have : b.length + m - 1 = (b.length - 1) + m := by omega
        rw [this, Nat.add_div_right _ hm, Nat.div_eq_of_lt (by omega)]
      · have e1 : b.length - m + m - 1 = b.length - 1 := by omega
        have : b.length + m - 1 = (b.length - 1) + m := by omega
        rw [e1, this, Nat.add_div_right _ hm]

theorem pieces_get (m : Nat) (hm : 0 < m) : ∀ (fuel : Nat) (b : Bytes), b.length < fuel → ∀ i, i < (pieces m fuel b).length →
    (pieces m fuel b)[i]? = some (Spec.chunk b m i) := by
  intro fuel
  induction fuel with
  | zero => intro b h; omega
  | succ fuel ih =>
    intro b h i hi
    unfold pieces at hi ⊢
    by_cases hb : b = []
    · subst hb; simp at hi
    · have hlen := List.length_pos_iff.mpr hb
      rw [if_neg hb] at hi ⊢
      cases i with
      | zero => simp [Spec.chunk]
      | succ i =>
        rw [List.getElem?_cons_succ, ih _ (by rw [List.length_drop]; omega) i (by simpa using hi)]
        simp only [Spec.chunk, List.drop_drop]
        congr 3
        rw [Nat.add_mul]; omega

theorem packets_length (p : Params) (name : List Comp) (ct fr k : Nat) (cs : List Bytes) (i : Nat) :
    (packets p name ct fr k cs i).length = cs.length := by
  induction cs generalizing i with
  | nil => rfl
  | cons c cs ih => simp [packets, ih]

theorem packets_get (p : Params) (name : List Comp) (ct fr k : Nat) (cs : List Bytes) (i j : Nat) :
    (packets p name ct fr k cs i)[j]? = (cs[j]?).map fun c => Spec.packet p.settings.encodeMarker name ct fr k (i + j) (some c) := by
  induction cs generalizing i j with
  | nil => simp [packets]
  | cons c cs ih =>
    cases j with
    | zero => simp [packets]
    | succ j =>
      simp only [packets, List.getElem?_cons_succ, ih]
      rw [show i + 1 + j = i + (j + 1) by omega]

theorem signAll_some {p : Params} : ∀ {l segs : List DFields}, signAll p l = some segs →
    segs.length = l.length ∧ ∀ (i : Nat) d u, segs[i]? = some d → l[i]? = some u → Spec.IsSigned p u d := by
  intro l
  induction l with
  | nil =>
    intro segs h
    simp only [signAll, Option.some.injEq] at h
    subst h
    exact ⟨rfl, by simp⟩
  | cons u l ih =>
    intro segs h
    simp only [signAll] at h
    obtain ⟨d, h1, h2⟩ := Option.bind_eq_some_iff.mp h
    obtain ⟨t, h3, rfl⟩ := Option.map_eq_some_iff.mp h2
    obtain ⟨h4, h5⟩ := ih h3
    refine ⟨by simp [h4], ?_⟩
    intro i d' u' hd hu
    cases i with
    | zero =>
      simp only [List.getElem?_cons_zero, Option.some.injEq] at hd hu
      subst hd hu
      unfold signed at h1
      obtain ⟨⟨si, sv⟩, h6, h7⟩ := Option.map_eq_some_iff.mp h1
      exact ⟨si, sv, h6, h7.symm⟩
    | succ i => exact h5 i d' u' (by simpa using hd) (by simpa using hu)

theorem signAll_isSome {p : Params} (l : List DFields) : (signAll p l).isSome ↔ ∀ d ∈ l, (p.sign d).isSome := by
  induction l with
  | nil => simp [signAll]
  | cons d l ih =>
    simp only [signAll, List.mem_cons, forall_eq_or_imp, ← ih, signed]
    cases p.sign d with
    | none => simp
    | some x => cases signAll p l <;> simp

theorem count_eq (len m : Nat) (hm : 0 < m) (e : Bool) (he : e = true ↔ len = 0) :
    1 + (len - (if e then 0 else 1)) / m = Spec.count len m := by
  unfold Spec.count
  cases e with
  | true =>
    have : len = 0 := he.mp rfl
    subst this
    simp
    rw [Nat.div_eq_of_lt (show m - 1 < m by omega)]
    rfl
  | false =>
    have : len ≠ 0 := fun h => by simpa using he.mpr h
    simp only [Bool.false_eq_true, if_false]
    have e2 : len + m - 1 = (len - 1) + m := by omega
    rw [e2, Nat.add_div_right _ hm, Nat.max_eq_right (Nat.le_add_left _ _), Nat.add_comm]

/-! ### C38 -/

theorem segment_eq (p : Params) (buffer : Bytes) (name : List Comp) (m : Nat) (fr : Int) (ct : Nat) (hm : 0 < m) (hfr : 0 ≤ fr) :
    segment p buffer name m fr ct =
      signAll p (packets p name ct fr.toNat (Spec.count buffer.length m - 1)
        (if buffer = [] then [[]] else pieces m (buffer.length + 1) buffer) 0) := by
  unfold segment
  rw [if_neg (by omega)]
  simp only [Conv.from_eq, Option.bind_some]
  have := count_eq buffer.length m hm (decide (buffer = [])) (by simp)
  simp only [decide_eq_true_eq] at this
  rw [this, loop_eq p name m ct _ fr hm hfr _ _ _ (Nat.lt_succ_self _)]

theorem pieces_all_length (m : Nat) (hm : 0 < m) (buffer : Bytes) :
    (if buffer = [] then [[]] else pieces m (buffer.length + 1) buffer).length = Spec.count buffer.length m := by
  unfold Spec.count
  split
  · rename_i h; subst h
    simp
    rw [Nat.div_eq_of_lt (by omega)]
    rfl
  · rename_i h
    have hlen := List.length_pos_iff.mpr h
    rw [pieces_length m hm _ _ (Nat.lt_succ_self _)]
    have e2 : buffer.length + m - 1 = (buffer.length - 1) + m := by omega
    rw [e2, Nat.add_div_right _ hm, Nat.max_eq_right (Nat.le_add_left _ _)]

theorem pieces_all_get (m : Nat) (hm : 0 < m) (buffer : Bytes) (i : Nat) (hi : i < Spec.count buffer.length m) :
    (if buffer = [] then [[]] else pieces m (buffer.length + 1) buffer)[i]? = some (Spec.chunk buffer m i) := by
  rw [← pieces_all_length m hm buffer] at hi
  split at hi
  · rename_i h
    rw [if_pos h]
    simp only [List.length_cons, List.length_nil] at hi
    obtain rfl : i = 0 := by omega
    subst h
    simp [Spec.chunk]
  · rename_i h
    rw [if_neg h]
    exact pieces_get m hm _ _ (Nat.lt_succ_self _) i hi

/-- The segments of every input: `count` of them, numbered consecutively from zero; segment `i` is
named with the prefix and the segment number, holds the `i`-th piece of the input, the content type
and freshness period asked for, and the last segment number as final block id; and is signed. -/
theorem C38_segments (p : Params) (buffer : Bytes) (name : List Comp) (m : Nat) (fr : Int) (ct : Nat) (segs : List DFields)
    (h : segment p buffer name m fr ct = some segs) :
    segs.length = Spec.count buffer.length m ∧
    ∀ (i : Nat) d, segs[i]? = some d → Spec.IsSigned p
      (Spec.packet p.settings.encodeMarker name ct fr.toNat (segs.length - 1) i (some (Spec.chunk buffer m i))) d := by
  have hm : 0 < m := by
    by_cases h0 : m = 0
    · simp [segment, h0] at h
    · omega
  have hfr : 0 ≤ fr := by
    by_cases h0 : 0 ≤ fr
    · exact h0
    · exfalso
      unfold segment at h
      rw [if_neg (by omega)] at h
      simp only [Conv.from_eq, Option.bind_some, loop, mk_span] at h
      rw [if_pos (by omega)] at h
      cases h
  rw [segment_eq p buffer name m fr ct hm hfr] at h
  obtain ⟨h1, h2⟩ := signAll_some h
  rw [packets_length, pieces_all_length m hm] at h1
  refine ⟨h1, fun i d hd => ?_⟩
  refine h2 i d _ hd ?_
  have hi : i < segs.length := by
    rw [List.getElem?_eq_some_iff] at hd
    exact hd.1
  rw [packets_get, pieces_all_get m hm buffer i (by omega), h1]
  simp

/-- The pieces: each has at most the maximum size, all but the last exactly that, none is empty unless
the input is, and their concatenation is the input. -/
theorem C38_chunks (buffer : Bytes) (m : Nat) (hm : 0 < m) :
    1 ≤ Spec.count buffer.length m ∧
    (∀ i, (Spec.chunk buffer m i).length ≤ m) ∧
    (∀ i, i + 1 < Spec.count buffer.length m → (Spec.chunk buffer m i).length = m) ∧
    (∀ i, i < Spec.count buffer.length m → buffer ≠ [] → Spec.chunk buffer m i ≠ []) ∧
    ((List.range (Spec.count buffer.length m)).map (Spec.chunk buffer m)).flatten = buffer := by
  have hcount : ∀ i, i + 1 < Spec.count buffer.length m → (i + 1) * m < buffer.length := by
    intro i hi
    unfold Spec.count at hi
    have hi' : i + 1 < (buffer.length + m - 1) / m := by omega
    have hi2 : i + 2 ≤ (buffer.length + m - 1) / m := hi'
    rw [Nat.le_div_iff_mul_le hm, Nat.add_mul] at hi2
    rw [Nat.add_mul]
    omega
  have hall : buffer.length ≤ Spec.count buffer.length m * m := by
    unfold Spec.count
    have h1 := Nat.div_add_mod (buffer.length + m - 1) m
    have h2 := Nat.mod_lt (buffer.length + m - 1) hm
    have h3 : (buffer.length + m - 1) / m * m ≤ max 1 ((buffer.length + m - 1) / m) * m :=
      Nat.mul_le_mul_right _ (Nat.le_max_right _ _)
    rw [Nat.mul_comm] at h1
    omega
  refine ⟨Nat.le_max_left _ _, ?_, ?_, ?_, ?_⟩
  · intro i; simp only [Spec.chunk, List.length_take]; omega
  · intro i hi
    have := hcount i hi
    simp only [Spec.chunk, List.length_take, List.length_drop]
    rw [Nat.add_mul] at this
    omega
  · intro i hi hne hc
    have hlen := List.length_pos_iff.mpr hne
    have h1 : (Spec.chunk buffer m i).length = 0 := by rw [hc]; rfl
    simp only [Spec.chunk, List.length_take, List.length_drop] at h1
    cases i with
    | zero => omega
    | succ i =>
      have := hcount i (by omega)
      omega
  · have key : ∀ n, ((List.range n).map (Spec.chunk buffer m)).flatten = buffer.take (n * m) := by
      intro n
      induction n with
      | zero => simp
      | succ n ih =>
        rw [List.range_succ, List.map_append, List.flatten_append, ih]
        simp only [List.map_cons, List.map_nil, List.flatten_cons, List.flatten_nil, List.append_nil, Spec.chunk]
        rw [Nat.add_mul, Nat.one_mul, List.take_add]
    rw [key, List.take_of_length_le hall]

/-- Segmentation succeeds exactly if the maximum size is positive, the freshness period is not
negative and every packet can be signed. -/
theorem C38_succeeds_iff (p : Params) (buffer : Bytes) (name : List Comp) (m : Nat) (fr : Int) (ct : Nat) :
    (segment p buffer name m fr ct).isSome ↔ 0 < m ∧ 0 ≤ fr ∧ ∀ i, i < Spec.count buffer.length m →
      (p.sign (Spec.packet p.settings.encodeMarker name ct fr.toNat (Spec.count buffer.length m - 1) i
        (some (Spec.chunk buffer m i)))).isSome := by
  by_cases hm : 0 < m
  · by_cases hfr : 0 ≤ fr
    · rw [segment_eq p buffer name m fr ct hm hfr, signAll_isSome]
      constructor
      · intro h
        refine ⟨hm, hfr, fun i hi => h _ ?_⟩
        apply List.mem_of_getElem? (i := i)
        rw [packets_get, pieces_all_get m hm buffer i hi]
        simp
      · rintro ⟨_, _, h⟩ d hd
        obtain ⟨i, hi⟩ := List.mem_iff_getElem?.mp hd
        have hlt : i < Spec.count buffer.length m := by
          rw [← pieces_all_length m hm buffer, ← packets_length p name ct fr.toNat (Spec.count buffer.length m - 1)
            (if buffer = [] then [[]] else pieces m (buffer.length + 1) buffer) 0]
          exact (List.getElem?_eq_some_iff.mp hi).1
        rw [packets_get, pieces_all_get m hm buffer i hlt] at hi
        simp only [Option.map_some, Option.some.injEq, Nat.zero_add] at hi
        subst hi
        exact h i hlt
    · constructor
      · intro h
        exfalso
        unfold segment at h
        rw [if_neg (by omega)] at h
        simp only [Conv.from_eq, Option.bind_some, loop, mk_span] at h
        rw [if_pos (by omega)] at h
        cases h
      · rintro ⟨_, h, _⟩; exact absurd h hfr
  · constructor
    · intro h
      exfalso
      unfold segment at h
      rw [if_pos (by omega)] at h
      cases h
    · rintro ⟨h, _⟩; exact absurd h hm

theorem finish_eq (p : Params) (final : Comp) (l : List DFields) :
    finish p final l = signAll p (l.map fun d => { d with minfo := { d.minfo with finalBlock := some final } }) := by
  induction l with
  | nil => rfl
  | cons d l ih =>
    have hc : calls ⟨d, none, []⟩ [.setFinalBlock (some final)] =
        some ⟨{ d with minfo := { d.minfo with finalBlock := some final } }, none, []⟩ := by
      simp only [calls, DObj.step, DObj.reset]
      by_cases h : some final = d.minfo.finalBlock
      · rw [h]; simp
      · simp [h]
    simp only [finish, hc, Option.bind_some, List.map_cons, signAll, ih]

theorem readLoop_eq (p : Params) (name : List Comp) (m ct : Nat) (fr : Int) (hm : 0 < m) (hfr : 0 ≤ fr) :
    ∀ (fuel : Nat) (b : Bytes) (i : Nat), b.length < fuel →
      readLoop p name m ct fr fuel b i =
        some ((packets p name ct fr.toNat 0 (pieces m fuel b) i).map fun d => { d with minfo := ⟨ct, fr.toNat, none, []⟩ }) := by
  intro fuel
  induction fuel with
  | zero => intro b i h; omega
  | succ fuel ih =>
    intro b i h
    simp only [readLoop, read, pieces]
    by_cases hb : b = []
    · simp [hb, packets]
    · have hlen := List.length_pos_iff.mpr hb
      simp only [hb, if_false, mk_stream]
      rw [if_neg (by omega)]
      simp only [Option.bind_some]
      rw [ih _ _ (by rw [List.length_drop]; omega)]
      simp [packets]

theorem packets_final (p : Params) (name : List Comp) (ct fr k : Nat) (cs : List Bytes) (i : Nat) :
    ((packets p name ct fr 0 cs i).map fun d => { d with minfo := ⟨ct, fr, none, []⟩ }).map
      (fun d => { d with minfo := { d.minfo with finalBlock := some (Name.Spec.convComp p.settings.encodeMarker .segment k) } }) =
    packets p name ct fr k cs i := by
  induction cs generalizing i with
  | nil => rfl
  | cons c cs ih => simp only [packets, List.map_cons, ih]; rfl

/-- Segmenting a stream gives the same packets as segmenting its octets; for an empty stream the only
packet has no content element instead of an empty one. -/
theorem C38_stream (p : Params) (stream : Bytes) (name : List Comp) (m : Nat) (fr : Int) (ct : Nat) :
    (stream ≠ [] → segmentStream p stream name m fr ct = segment p stream name m fr ct) ∧
    (0 < m → 0 ≤ fr → segmentStream p [] name m fr ct =
      (signed p (Spec.packet p.settings.encodeMarker name ct fr.toNat 0 0 none)).map fun d => [d]) ∧
    (m = 0 → segmentStream p stream name m fr ct = none) := by
  refine ⟨?_, ?_, ?_⟩
  · intro hne
    by_cases hm : m = 0
    · simp [segmentStream, segment, hm]
    · by_cases hfr : 0 ≤ fr
      · rw [segment_eq p stream name m fr ct (by omega) hfr]
        unfold segmentStream
        rw [if_neg hm, readLoop_eq p name m ct fr (by omega) hfr _ _ _ (Nat.lt_succ_self _)]
        simp only [Option.bind_some]
        have hpl := pieces_all_length m (by omega) stream
        rw [if_neg hne] at hpl ⊢
        have hlen : ((packets p name ct fr.toNat 0 (pieces m (stream.length + 1) stream) 0).map
            fun d => { d with minfo := ⟨ct, fr.toNat, none, []⟩ }).length = Spec.count stream.length m := by
          rw [List.length_map, packets_length, hpl]
        rw [if_neg (fun h0 => by
          rw [h0] at hlen
          have := (C38_chunks stream m (by omega)).1
          simp at hlen; omega)]
        simp only [Option.bind_some]
        rw [Conv.from_eq, hlen]
        simp only [Option.bind_some]
        rw [finish_eq, packets_final]
      · have h1 : segment p stream name m fr ct = none := by
          have := (C38_succeeds_iff p stream name m fr ct)
          cases hs : segment p stream name m fr ct with
          | none => rfl
          | some x => rw [hs] at this; exact absurd (this.mp rfl).2.1 hfr
        rw [h1]
        unfold segmentStream
        rw [if_neg hm]
        simp only [readLoop, read, hne, if_false, mk_stream]
        rw [if_pos (by omega)]
        rfl
  · intro hm hfr
    unfold segmentStream
    rw [if_neg (by omega), readLoop_eq p name m ct fr hm hfr _ _ _ (Nat.lt_succ_self _)]
    simp only [List.length_nil, pieces, if_true, packets, List.map_nil, Option.bind_some, mk_empty]
    rw [if_neg (by omega)]
    simp only [Option.map_some, Option.bind_some, Conv.from_eq, finish_eq, List.map_cons, List.map_nil, signAll,
      List.length_cons, List.length_nil]
    cases hs : signed p (Spec.packet p.settings.encodeMarker name ct fr.toNat 0 0 none) with
    | none =>
      have : signed p { Spec.packet p.settings.encodeMarker name ct fr.toNat 0 0 none with
        minfo := ⟨ct, fr.toNat, some (Name.Spec.convComp p.settings.encodeMarker .segment 0), []⟩ } = none := hs
      exact congrArg (fun x => Option.bind x fun d => (some []).map (d :: ·)) this
    | some d =>
      have : signed p { Spec.packet p.settings.encodeMarker name ct fr.toNat 0 0 none with
        minfo := ⟨ct, fr.toNat, some (Name.Spec.convComp p.settings.encodeMarker .segment 0), []⟩ } = some d := hs
      exact congrArg (fun x => Option.bind x fun d => (some []).map (d :: ·)) this
  · intro hm; simp [segmentStream, hm]

/-- Segment names and final block ids are recognised as segment numbers when decoding accepts the
convention in force. -/
theorem C38_numbers (p : Params) (buffer : Bytes) (name : List Comp) (m : Nat) (fr : Int) (ct : Nat) (segs : List DFields)
    (h : segment p buffer name m fr ct = some segs) (hlen : segs.length ≤ 2 ^ 64)
    (hd : if p.settings.encodeMarker then p.settings.decodeMarker = true else p.settings.decodeTyped = true)
    (i : Nat) (d : DFields) (hi : segs[i]? = some d) :
    (∃ c, d.name = name ++ [c] ∧ Conv.segment.to p.settings c = some i) ∧
    (∃ c, d.minfo.finalBlock = some c ∧ Conv.segment.to p.settings c = some (segs.length - 1)) := by
  obtain ⟨_, h2⟩ := C38_segments p buffer name m fr ct segs h
  obtain ⟨si, sv, _, rfl⟩ := h2 i d hi
  have hlt : i < segs.length := (List.getElem?_eq_some_iff.mp hi).1
  have conv : ∀ n, n < 2 ^ 64 → Conv.segment.to p.settings (Name.Spec.convComp p.settings.encodeMarker .segment n) = some n := by
    intro n hn
    obtain ⟨c, h3, _, h5⟩ := C16_roundtrip p.settings .segment n hn hd
    rw [Conv.from_eq] at h3
    simp only [Option.some.injEq] at h3
    rw [h3]; exact h5
  exact ⟨⟨_, rfl, conv i (by omega)⟩, ⟨_, rfl, conv _ (by omega)⟩⟩

def sampleParams : Params := ⟨⟨false, false, true⟩, fun _ => some (SigInfo.init, [7])⟩

example : ((segment sampleParams [1, 2, 3, 4, 5] [⟨8, [65]⟩] 2 1000 0).map fun l => l.map fun d => (d.name.length, d.content.map Block.Raw.value))
    = some [(2, some [1, 2]), (2, some [3, 4]), (2, some [5])] := by decide

example : ((segment sampleParams [1, 2, 3, 4] [⟨8, [65]⟩] 2 1000 0).map List.length) = some 2 := by decide

end Ndn.Segmenter
