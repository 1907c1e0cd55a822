import Verif.Nfd.ItemsLemmas
namespace Ndn.Nfd
open Tlv Tlv.Spec Block Block.Spec Name Packet Packet.Spec Mgmt

/-! ### Sizes -/

theorem writeVar_le (n : Nat) : (writeVarNumber n).length ≤ 9 := by
  rw [writeVarNumber_length]; unfold sizeOfVarNumber; (repeat' split) <;> omega

theorem nniTlv_le (t n : Nat) : (nniTlv t n).length ≤ 26 := by
  unfold nniTlv
  rw [tlvBytes_length]
  have h1 := writeVar_le t
  have h2 := writeVar_le (writeNonNegativeInteger n).length
  have h3 : (writeNonNegativeInteger n).length ≤ 8 := by
    rw [writeNonNegativeInteger_length]; unfold sizeOfNonNegativeInteger; (repeat' split) <;> omega
  omega

theorem CsInfo.size (s : CsInfo) : s.value.length < 2 ^ 64 := by
  unfold CsInfo.value
  simp only [List.length_append]
  have h1 := nniTlv_le 131 s.capacity
  have h2 := nniTlv_le 108 s.flags
  have h3 := nniTlv_le 135 s.nEntries
  have h4 := nniTlv_le 129 s.nHits
  have h5 := nniTlv_le 130 s.nMisses
  omega

theorem NextHop.size (s : NextHop) : s.value.length < 2 ^ 64 := by
  unfold NextHop.value
  simp only [List.length_append]
  have h1 := nniTlv_le 105 s.faceId
  have h2 := nniTlv_le 106 s.cost
  omega

theorem Route.size (s : Route) : s.value.length < 2 ^ 64 := by
  unfold Route.value
  simp only [List.length_append]
  have h1 := nniTlv_le 105 s.faceId
  have h2 := nniTlv_le 106 s.cost
  have h3 := nniTlv_le 111 s.origin
  have h4 := nniTlv_le 108 s.flags
  have h5 : (optElem s.expiration (fun d => nniTlv 109 (toU64 d))).length ≤ 26 := by
    cases s.expiration with
    | none => simp [optElem]
    | some d => exact nniTlv_le 109 _
  omega

/-! ### ForwarderStatus -/

/-- The time points in whole milliseconds. -/
def Forwarder.trunc (s : Forwarder) : Forwarder :=
  { s with start := toMs s.start * 1000000, current := toMs s.current * 1000000 }

theorem durRaw_time {t : Nat} {d : Int} (h : I64 d) : IsTime (durRaw t (toMs d)) (toMs d * 1000000) := by
  have h2 : -2 ^ 63 ≤ toMs d * 1000000 ∧ toMs d * 1000000 < 2 ^ 63 ∧ I64 (toMs d) := by
    unfold toMs I64 at *
    rcases Int.le_total 0 d with h0 | h0
    · rw [Int.tdiv_eq_ediv_of_nonneg h0]; omega
    · have : d.tdiv 1000000 = -((-d) / 1000000) := by
        rw [show d = -(-d) by omega, Int.neg_tdiv, Int.tdiv_eq_ediv_of_nonneg (by omega)]; omega
      rw [this]; omega
  exact ⟨toMs d, durRaw_signed h2.2.2, rfl, h2.1, h2.2.1⟩

theorem toMs_mul (t : Int) : toMs (t * 1000000) = t := by
  unfold toMs; exact Int.mul_tdiv_cancel _ (by decide)

theorem Forwarder.trunc_trunc (s : Forwarder) : s.trunc.trunc = s.trunc := by
  simp only [Forwarder.trunc, toMs_mul]

theorem Forwarder.laid {s : Forwarder} (h : s.Ok) : Laid s.elems s.trunc.grammar := by
  obtain ⟨h0, h1, h2, h3, h4, h5, h6, h7, h8, h9, h10, h11, h12, h13, h14, h15⟩ := h
  exact laid_one rfl rfl (laid_one rfl (durRaw_time h0) (laid_one rfl (durRaw_time h1) (laid_one rfl (numRaw_u64 h2)
    (laid_one rfl (numRaw_u64 h3) (laid_one rfl (numRaw_u64 h4) (laid_one rfl (numRaw_u64 h5) (laid_one rfl (numRaw_u64 h6)
    (laid_one rfl (numRaw_u64 h7) (laid_one rfl (numRaw_u64 h8) (laid_one rfl (numRaw_u64 h9) (laid_one rfl (numRaw_u64 h10)
    (laid_one rfl (numRaw_u64 h11) (laid_one rfl (numRaw_u64 h12) (laid_one rfl (numRaw_u64 h13)
    (laid_one rfl (numRaw_u64 h14) trivial)))))))))))))))

theorem Forwarder.laid_trunc {s : Forwarder} {es : List Raw} (h : Laid es s.grammar) : s.trunc = s := by
  obtain ⟨_, _, rfl, _, _, _, _, rfl, _, ⟨m1, _, h1, _⟩, _, _, rfl, _, ⟨m2, _, h2, _⟩, _⟩ := h
  unfold Forwarder.trunc
  rw [h1, h2, toMs_mul, toMs_mul, ← h1, ← h2]

/-! ### The codec in general -/

theorem wireDecode_iff {σ : Type} (c : Codec σ) (M : List Raw → σ → Prop)
    (hf : ∀ s es s', c.fill (c.start s) es = (.ok, s') ↔ M es s') (o o' : Obj σ) (b : Raw) :
    c.wireDecode o b = (.ok, o') ↔ o'.wire = some b ∧ b.type = c.type ∧ ∃ es, ReadsAs b.value es ∧ M es o'.v := by
  unfold Codec.wireDecode
  by_cases ht : b.type = c.type
  · rw [if_neg (by simp [ht])]
    cases hp : parseElements b.value with
    | none =>
      simp only
      constructor
      · intro h; cases h
      · rintro ⟨_, _, es, h, _⟩
        rw [parseElements_iff.2 h] at hp; cases hp
    | some es =>
      simp only
      constructor
      · intro h
        have h1 := congrArg Prod.fst h
        have h2 := congrArg Prod.snd h
        dsimp only at h1 h2
        subst h2
        exact ⟨rfl, ht, es, parseElements_iff.1 hp, (hf _ _ _).1 (Prod.ext h1 rfl)⟩
      · rintro ⟨hw, _, es', h, hm⟩
        rw [parseElements_iff.2 h] at hp
        cases hp
        have := (hf o.v es o'.v).2 hm
        rw [this]
        obtain ⟨w, v⟩ := o'
        simp only at hw
        rw [hw]
  · rw [if_pos ht]
    constructor
    · intro h; cases h
    · rintro ⟨_, h, _⟩; exact absurd h ht

/-- What is proved of each structure: decoding follows its meaning `M`, encoding an allowed value gives elements that mean
`view` of it, and what was decoded is its own view. -/
structure Sound {σ : Type} (c : Codec σ) (M : List Raw → σ → Prop) (Ok : σ → Prop) (view : σ → σ) : Prop where
  fill : ∀ s es s', c.fill (c.start s) es = (.ok, s') ↔ M es s'
  type : 1 ≤ c.type ∧ c.type ≤ 2 ^ 32 - 1
  enc : ∀ s, Ok s → ∃ es, c.value s = (es.map Raw.wire).flatten ∧ (∀ e ∈ es, RawWF e) ∧ M es (view s)
  size : ∀ s, Ok s → (c.value s).length < 2 ^ 64
  fixed : ∀ es s, M es s → view s = s

theorem Sound.roundtrip {σ : Type} {c : Codec σ} {M : List Raw → σ → Prop} {Ok : σ → Prop} {view : σ → σ}
    (h : Sound c M Ok view) (s : σ) (hs : Ok s) (o : Obj σ) :
    c.wireDecode o (c.encode s) = (.ok, ⟨some (c.encode s), view s⟩) := by
  rw [wireDecode_iff c M h.fill]
  obtain ⟨es, h1, h2, h3⟩ := h.enc s hs
  refine ⟨rfl, rfl, es, ?_, h3⟩
  show ReadsAs (c.value s) es
  rw [h1]
  exact readsAs_of h2

theorem Sound.element {σ : Type} {c : Codec σ} {M : List Raw → σ → Prop} {Ok : σ → Prop} {view : σ → σ}
    (h : Sound c M Ok view) (s : σ) (hs : Ok s) : RawWF (c.encode s) :=
  binaryBlock_wf h.type.1 h.type.2 (h.size s hs)

theorem Sound.inv {σ α : Type} {c : Codec σ} {M : List Raw → σ → Prop} {Ok : σ → Prop} {view : σ → σ}
    (h : Sound c M Ok view) (apply : α → σ → σ) (ops : List (Op α)) : ∀ o o' : Obj σ, c.run apply ops o = some o' →
    (∀ w, o.wire = some w → w = c.encode o.v ∨ ∀ o1, c.wireDecode o1 w = (.ok, ⟨some w, o.v⟩) ∧ view o.v = o.v) →
    ∀ w, o'.wire = some w → w = c.encode o'.v ∨ ∀ o1, c.wireDecode o1 w = (.ok, ⟨some w, o'.v⟩) ∧ view o'.v = o'.v := by
  induction ops with
  | nil => intro o o' h1 hi; simp only [Codec.run, Option.some.injEq] at h1; subst h1; exact hi
  | cons op ops ih =>
    intro o o' h1 hi
    simp only [Codec.run] at h1
    split at h1
    · rename_i o1 hs
      refine ih o1 o' h1 ?_
      intro w hw
      cases op with
      | set x =>
        simp only [Codec.step, Prod.mk.injEq, true_and] at hs
        subst hs; cases hw
      | encode =>
        simp only [Codec.step, Codec.wireEncode, Prod.mk.injEq, true_and] at hs
        subst hs
        cases hw2 : o.wire with
        | none =>
          rw [hw2] at hw
          simp only [Option.some.injEq] at hw ⊢
          exact Or.inl hw.symm
        | some v =>
          rw [hw2] at hw
          exact hi w hw
      | decode b =>
        simp only [Codec.step] at hs
        have hd := (wireDecode_iff c M h.fill _ _ _).1 hs
        obtain ⟨hb, ht, es, hr, hm⟩ := hd
        rw [hb] at hw
        cases hw
        refine Or.inr fun o2 => ⟨?_, h.fixed _ _ hm⟩
        rw [wireDecode_iff c M h.fill]
        exact ⟨rfl, ht, es, hr, hm⟩
    · cases h1

theorem Sound.history {σ α : Type} {c : Codec σ} {M : List Raw → σ → Prop} {Ok : σ → Prop} {view : σ → σ}
    (h : Sound c M Ok view) (apply : α → σ → σ) (ops : List (Op α)) (s0 : σ) (o : Obj σ)
    (hr : c.run apply ops ⟨none, s0⟩ = some o) (ok : Ok o.v) (o1 : Obj σ) :
    c.wireDecode o1 (c.wireEncode o).2 = (.ok, ⟨some (c.wireEncode o).2, view o.v⟩) := by
  have hi := h.inv apply ops ⟨none, s0⟩ o hr (by intro w hw; cases hw)
  unfold Codec.wireEncode
  cases hw : o.wire with
  | none => exact h.roundtrip _ ok o1
  | some w =>
    simp only
    rcases hi w hw with rfl | h2
    · exact h.roundtrip _ ok o1
    · rw [(h2 o1).2]; exact (h2 o1).1

theorem sound_of {σ : Type} {c : Codec σ} {g : σ → List Item} {Ok : σ → Prop} {view : σ → σ} (elems : σ → List Raw)
    (hf : ∀ s es s', c.fill (c.start s) es = (.ok, s') ↔ Laid es (g s'))
    (ht : 1 ≤ c.type ∧ c.type ≤ 2 ^ 32 - 1)
    (hw : ∀ s, c.value s = ((elems s).map Raw.wire).flatten) (hb : ∀ s, ∀ e ∈ elems s, IsBin e)
    (hl : ∀ s, Ok s → Laid (elems s) (g (view s))) (hz : ∀ s, Ok s → (c.value s).length < 2 ^ 64)
    (hx : ∀ es s, Laid es (g s) → view s = s) : Sound c (fun es s => Laid es (g s)) Ok view where
  fill := hf
  type := ht
  enc s hs := ⟨elems s, hw s, all_wf (hw s) (hz s hs) (hb s), hl s hs⟩
  size := hz
  fixed := hx

theorem Channel.sound : Sound Channel.codec (fun es s => Laid es s.grammar) Channel.Ok id :=
  sound_of Channel.elems (fun s es s' => Channel.exact s s' es) (by decide) Channel.elems_wire Channel.elems_bin
    (fun _ h => Channel.laid h) (fun _ h => h) (fun _ _ _ => rfl)

theorem CsInfo.sound : Sound CsInfo.codec (fun es s => Laid es s.grammar) CsInfo.Ok id :=
  sound_of CsInfo.elems (fun s es s' => CsInfo.exact s s' es) (by decide) CsInfo.elems_wire CsInfo.elems_bin
    (fun _ h => CsInfo.laid h) (fun s _ => CsInfo.size s) (fun _ _ _ => rfl)

theorem FaceEvent.sound : Sound FaceEvent.codec (fun es s => Laid es s.grammar) FaceEvent.Ok id :=
  sound_of FaceEvent.elems (fun s es s' => FaceEvent.exact s s' es) (by decide) FaceEvent.elems_wire FaceEvent.elems_bin
    (fun _ h => FaceEvent.laid h) (fun _ h => h.2.2.2.2.2.2) (fun _ _ _ => rfl)

theorem FaceStatus.sound : Sound FaceStatus.codec (fun es s => Laid es s.grammar) FaceStatus.Ok id :=
  sound_of FaceStatus.elems (fun s es s' => FaceStatus.exact s s' es) (by decide) FaceStatus.elems_wire
    FaceStatus.elems_bin (fun _ h => FaceStatus.laid h) (fun _ h => h.2.2.2.2.2.2.2.2.2.2.2.2.2.2.2.2.2) (fun _ _ _ => rfl)

theorem Forwarder.sound : Sound Forwarder.codec (fun es s => Laid es s.grammar) Forwarder.Ok Forwarder.trunc :=
  sound_of Forwarder.elems (fun s es s' => Forwarder.exact s s' es) (by decide) Forwarder.elems_wire Forwarder.elems_bin
    (fun _ h => Forwarder.laid h) (fun _ h => h.2.2.2.2.2.2.2.2.2.2.2.2.2.2.2) (fun _ _ h => Forwarder.laid_trunc h)

theorem Filter.sound : Sound Filter.codec (fun es s => Laid es s.grammar) Filter.Ok id :=
  sound_of Filter.elems (fun s es s' => Filter.exact s s' es) (by decide) Filter.elems_wire Filter.elems_bin
    (fun _ h => Filter.laid h) (fun _ h => h.2.2.2.2) (fun _ _ _ => rfl)

theorem NextHop.sound : Sound NextHop.codec (fun es s => Laid es s.grammar) NextHop.Ok id :=
  sound_of NextHop.elems (fun s es s' => NextHop.exact s s' es) (by decide) NextHop.elems_wire NextHop.elems_bin
    (fun _ h => NextHop.laid h) (fun s _ => NextHop.size s) (fun _ _ _ => rfl)

theorem Route.sound : Sound Route.codec (fun es s => Laid es s.grammar) Route.Ok id :=
  sound_of Route.elems (fun s es s' => Route.exact s s' es) (by decide) Route.elems_wire Route.elems_bin
    (fun _ h => Route.laid h) (fun s _ => Route.size s) (fun _ _ _ => rfl)

/-! ### StrategyChoice -/

theorem nameRaw_is {n : List Comp} (h : NameWF n) (hs : (encodeComps n).length < 2 ^ 64) : IsName (nameRaw n) n :=
  (nameOf_isName _ _).1 (nameOf_nameRaw h hs)

theorem strat_holds {n : List Comp} (h : NameWF n) (hs : (encodeComps n).length < 2 ^ 64) : HoldsName (stratRaw n) n := by
  refine ⟨nameRaw n, [], ⟨?_, ?_⟩, nameRaw_is h hs⟩
  · simp [stratRaw, binaryBlock, nameRaw_wire]
  · intro e he
    simp only [List.mem_singleton] at he
    subst he
    exact nameRaw_wf hs

theorem Choice.sound : Sound Choice.codec (fun es s => Laid es s.grammar) Choice.Ok id := by
  refine sound_of (fun s => [nameRaw s.name, stratRaw s.strategy]) (fun s es s' => Choice.exact s s' es) (by decide)
    ?_ ?_ ?_ (fun _ h => h.2.2) (fun _ _ _ => rfl)
  · intro s
    simp [Choice.codec, Choice.value, nameRaw_wire, stratRaw, binaryBlock]
  · intro s
    exact bin_cons ⟨_, _, by decide, by decide, rfl⟩ (bin_cons ⟨_, _, by decide, by decide, rfl⟩ bin_nil)
  · intro s h
    obtain ⟨h1, h2, h3⟩ := h
    have hv : s.value.length = (encodeComps s.name).length + (tlvBytes 107 (encodeComps s.strategy)).length := by
      simp [Choice.value]
    have := tlvBytes_ge 107 (encodeComps s.strategy)
    exact laid_one rfl (nameRaw_is h1 (by omega)) (laid_one rfl (strat_holds h2 (by omega)) trivial)

/-! ### Entries with records -/

theorem fillHops_iff (es : List Raw) : ∀ s s' : Fib, Fib.fillHops es s = (.ok, s') ↔
    s'.pfx = s.pfx ∧ ∃ hs, s'.hops = s.hops ++ hs ∧ Each (Holds 129 NextHop.grammar) es hs := by
  induction es with
  | nil =>
    intro s s'
    simp only [Fib.fillHops, Prod.mk.injEq, true_and]
    constructor
    · rintro rfl; exact ⟨rfl, [], by simp, trivial⟩
    · rintro ⟨h1, hs, h2, h3⟩
      cases hs with
      | nil => obtain ⟨a, b⟩ := s; obtain ⟨c, d⟩ := s'; simp_all
      | cons => cases h3
  | cons e es ih =>
    intro s s'
    simp only [Fib.fillHops]
    constructor
    · intro h
      split at h
      · rename_i o ho
        obtain ⟨h1, hs, h2, h3⟩ := (ih _ _).1 h
        obtain ⟨-, ht, xs, hr, hl⟩ := (wireDecode_iff _ _ NextHop.sound.fill _ _ _).1 ho
        exact ⟨h1, o.v :: hs, by rw [h2]; simp, ⟨ht, xs, hr, hl⟩, h3⟩
      · rename_i r o hne ho
        simp only [Prod.mk.injEq] at h
        obtain ⟨rfl, rfl⟩ := h
        exact (hne rfl).elim
    · rintro ⟨h1, hs, h2, h3⟩
      cases hs with
      | nil => cases h3
      | cons x xs =>
        obtain ⟨⟨ht, ys, hr, hl⟩, h4⟩ := h3
        have hd : NextHop.codec.wireDecode ⟨none, {}⟩ e = (.ok, ⟨some e, x⟩) :=
          (wireDecode_iff _ _ NextHop.sound.fill _ _ _).2 ⟨rfl, ht, ys, hr, hl⟩
        rw [hd]
        simp only
        exact (ih _ _).2 ⟨h1, xs, by rw [h2]; simp, h4⟩

theorem Fib.fill_iff (s : Fib) (es : List Raw) (s' : Fib) : Fib.fill s es = (.ok, s') ↔ Fib.Means es s' := by
  unfold Fib.fill Fib.Means
  cases es with
  | nil =>
    simp only
    constructor
    · intro h; cases h
    · rintro ⟨_, _, h, _⟩; cases h
  | cons e rest =>
    simp only
    cases hn : nameOf e with
    | none =>
      simp only
      constructor
      · intro h; cases h
      · rintro ⟨_, _, h, h1, _⟩
        cases h
        rw [(nameOf_isName _ _).2 h1] at hn; cases hn
    | some n =>
      simp only
      rw [fillHops_iff]
      constructor
      · rintro ⟨h1, hs, h2, h3⟩
        simp only [List.nil_append] at h1 h2
        subst h2
        exact ⟨e, rest, rfl, by rw [h1]; exact (nameOf_isName _ _).1 hn, h3⟩
      · rintro ⟨_, _, h, h1, h2⟩
        cases h
        rw [(nameOf_isName _ _).2 h1] at hn
        cases hn
        exact ⟨rfl, s'.hops, by simp, h2⟩

theorem each_map {α β : Type} {R : α → β → Prop} {f : β → α} : ∀ (l : List β), (∀ b ∈ l, R (f b) b) → Each R (l.map f) l
  | [], _ => trivial
  | b :: l, h => ⟨h b (List.mem_cons_self ..), each_map l fun x hx => h x (List.mem_cons_of_mem _ hx)⟩

theorem holds_encode {σ : Type} {c : Codec σ} {g : σ → List Item} {Ok : σ → Prop}
    (h : Sound c (fun es s => Laid es (g s)) Ok id) (s : σ) (hs : Ok s) : Holds c.type g (c.encode s) s := by
  obtain ⟨es, h1, h2, h3⟩ := h.enc s hs
  refine ⟨rfl, es, ?_, h3⟩
  show ReadsAs (c.value s) es
  rw [h1]
  exact readsAs_of h2

theorem Fib.sound : Sound Fib.codec Fib.Means Fib.Ok id where
  fill := Fib.fill_iff
  type := by decide
  enc s hs := by
    have hv : Fib.codec.value s = ((nameRaw s.pfx :: s.hops.map NextHop.codec.encode).map Raw.wire).flatten := by
      simp [Fib.codec, Fib.value, nameRaw_wire, List.flatMap_def, Function.comp_def]
    have hsz : (encodeComps s.pfx).length < 2 ^ 64 := by
      have : s.value.length = (encodeComps s.pfx).length + (s.hops.flatMap fun h => (NextHop.codec.encode h).wire).length := by
        simp only [Fib.value, List.length_append]
      have := hs.2.2
      omega
    refine ⟨_, hv, ?_, ?_⟩
    · intro e he
      rcases List.mem_cons.1 he with rfl | he
      · exact nameRaw_wf hsz
      · obtain ⟨h, hm, rfl⟩ := List.mem_map.1 he
        exact NextHop.sound.element _ (hs.2.1 h hm)
    · exact ⟨_, _, rfl, nameRaw_is hs.1 hsz, each_map _ fun h hm => holds_encode NextHop.sound h (hs.2.1 h hm)⟩
  size s hs := hs.2.2
  fixed _ _ _ := rfl

theorem fillRoutes_iff (es : List Raw) : ∀ s s' : Rib, Rib.fillRoutes es s = (.ok, s') ↔
    s'.name = s.name ∧ ∃ hs, s'.routes = s.routes ++ hs ∧ Each (Holds 129 Route.grammar) es hs := by
  induction es with
  | nil =>
    intro s s'
    simp only [Rib.fillRoutes, Prod.mk.injEq, true_and]
    constructor
    · rintro rfl; exact ⟨rfl, [], by simp, trivial⟩
    · rintro ⟨h1, hs, h2, h3⟩
      cases hs with
      | nil => obtain ⟨a, b⟩ := s; obtain ⟨c, d⟩ := s'; simp_all
      | cons => cases h3
  | cons e es ih =>
    intro s s'
    simp only [Rib.fillRoutes]
    constructor
    · intro h
      split at h
      · rename_i o ho
        obtain ⟨h1, hs, h2, h3⟩ := (ih _ _).1 h
        obtain ⟨-, ht, xs, hr, hl⟩ := (wireDecode_iff _ _ Route.sound.fill _ _ _).1 ho
        exact ⟨h1, o.v :: hs, by rw [h2]; simp, ⟨ht, xs, hr, hl⟩, h3⟩
      · rename_i r o hne ho
        simp only [Prod.mk.injEq] at h
        obtain ⟨rfl, rfl⟩ := h
        exact (hne rfl).elim
    · rintro ⟨h1, hs, h2, h3⟩
      cases hs with
      | nil => cases h3
      | cons x xs =>
        obtain ⟨⟨ht, ys, hr, hl⟩, h4⟩ := h3
        have hd : Route.codec.wireDecode ⟨none, {}⟩ e = (.ok, ⟨some e, x⟩) :=
          (wireDecode_iff _ _ Route.sound.fill _ _ _).2 ⟨rfl, ht, ys, hr, hl⟩
        rw [hd]
        simp only
        exact (ih _ _).2 ⟨h1, xs, by rw [h2]; simp, h4⟩

theorem Rib.fill_iff (s : Rib) (es : List Raw) (s' : Rib) : Rib.fill s es = (.ok, s') ↔ Rib.Means es s' := by
  unfold Rib.fill Rib.Means
  cases es with
  | nil =>
    simp only
    constructor
    · intro h; cases h
    · rintro ⟨_, _, h, _⟩; cases h
  | cons e rest =>
    simp only
    cases hn : nameOf e with
    | none =>
      simp only
      constructor
      · intro h; cases h
      · rintro ⟨_, _, h, h1, _⟩
        cases h
        rw [(nameOf_isName _ _).2 h1] at hn; cases hn
    | some n =>
      simp only
      rw [fillRoutes_iff]
      constructor
      · rintro ⟨h1, hs, h2, h3⟩
        simp only [List.nil_append] at h1 h2
        subst h2
        exact ⟨e, rest, rfl, by rw [h1]; exact (nameOf_isName _ _).1 hn, h3⟩
      · rintro ⟨_, _, h, h1, h2⟩
        cases h
        rw [(nameOf_isName _ _).2 h1] at hn
        cases hn
        exact ⟨rfl, s'.routes, by simp, h2⟩

theorem Rib.sound : Sound Rib.codec Rib.Means Rib.Ok id where
  fill := Rib.fill_iff
  type := by decide
  enc s hs := by
    have hv : Rib.codec.value s = ((nameRaw s.name :: s.routes.map Route.codec.encode).map Raw.wire).flatten := by
      simp [Rib.codec, Rib.value, nameRaw_wire, List.flatMap_def, Function.comp_def]
    have hsz : (encodeComps s.name).length < 2 ^ 64 := by
      have : s.value.length = (encodeComps s.name).length + (s.routes.flatMap fun h => (Route.codec.encode h).wire).length := by
        simp only [Rib.value, List.length_append]
      have := hs.2.2
      omega
    refine ⟨_, hv, ?_, ?_⟩
    · intro e he
      rcases List.mem_cons.1 he with rfl | he
      · exact nameRaw_wf hsz
      · obtain ⟨h, hm, rfl⟩ := List.mem_map.1 he
        exact Route.sound.element _ (hs.2.1 h hm)
    · exact ⟨_, _, rfl, nameRaw_is hs.1 hsz, each_map _ fun h hm => holds_encode Route.sound h (hs.2.1 h hm)⟩
  size s hs := hs.2.2
  fixed _ _ _ := rfl

/-! ### ControlResponse -/

theorem Response.fill_iff (es : List Raw) (r : Response) : Response.fill {} es = (.ok, r) ↔ Response.Means es r := by
  unfold Response.fill Response.Means
  constructor
  · intro h
    cases es with
    | nil => cases h
    | cons e1 es1 =>
      simp only at h
      by_cases h1 : e1.type = 102
      · rw [if_pos h1] at h
        cases hn : numAs (2 ^ 32 - 1) e1 with
        | ok n =>
          rw [hn] at h
          simp only at h
          cases es1 with
          | nil => cases h
          | cons e2 es2 =>
            simp only at h
            by_cases h2 : e2.type = 103
            · rw [if_pos h2] at h
              simp only [Prod.mk.injEq, true_and] at h
              subst h
              refine ⟨e1, e2, es2, rfl, h1, (numAs_ok _ _ _).1 hn, h2, rfl, ?_⟩
              cases es2 <;> rfl
            · rw [if_neg h2] at h; cases h
        | bad => rw [hn] at h; cases h
        | ub => rw [hn] at h; cases h
      · rw [if_neg h1] at h; cases h
  · rintro ⟨e1, e2, rest, rfl, h1, hn, h2, ht, hb⟩
    simp only
    rw [if_pos h1, (numAs_ok _ _ _).2 hn]
    simp only
    rw [if_pos h2]
    obtain ⟨c, t, b⟩ := r
    simp only at ht hb
    subst ht hb
    cases rest <;> rfl

theorem Response.sound : Sound Response.codec Response.Means Response.Ok id where
  fill _ es r := Response.fill_iff es r
  type := by decide
  enc r hr := by
    obtain ⟨h1, h2, h3⟩ := hr
    have hv : Response.codec.value r = ((numRaw 102 r.code :: binaryBlock 103 r.text :: optRaw r.body id).map Raw.wire).flatten := by
      simp only [List.map_cons, List.flatten_cons, optRaw_wire r.body id Raw.wire (fun _ => rfl)]
      simp [Response.codec, Response.value, numRaw, binaryBlock, nniTlv]
    refine ⟨_, hv, ?_, numRaw 102 r.code, binaryBlock 103 r.text, optRaw r.body id, rfl, rfl,
      numRaw_num (by omega) (by decide), rfl, rfl, ?_⟩
    · intro e he
      have hl := flatten_mem_le he
      rw [← hv] at hl
      have hl : e.wire.length < 2 ^ 64 := Nat.lt_of_le_of_lt hl h3
      rcases List.mem_cons.1 he with rfl | he
      · exact isBin_wf ⟨_, _, by decide, by decide, rfl⟩ hl
      · rcases List.mem_cons.1 he with rfl | he
        · exact isBin_wf ⟨_, _, by decide, by decide, rfl⟩ hl
        · obtain ⟨a, ha, hx⟩ := mem_optRaw.1 he
          rw [hx]
          exact h2 a ha
    · show r.body = _
      cases r.body <;> rfl
  size r hr := hr.2.2
  fixed _ _ _ := rfl

end Ndn.Nfd
