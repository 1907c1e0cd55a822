import Verif.Bag.Spec
import Verif.Net.Props
import Verif.Packet.Props
/-
Properties C102 (additional descriptions), C103 (safe bags) and C104 (certificates).
-/
namespace Ndn.Bag
open Ndn.Tlv Ndn.Block Ndn.Block.Spec Ndn.Name Ndn.Packet Ndn.Packet.Spec Ndn.Bag.Spec

/-! ### The map -/

theorem look_put (k v k' : Bytes) (l : Entries) (ho : Ordered l) :
    look k' (put k v l) = if k' = k then some v else look k' l := by
  induction l with
  | nil =>
    simp only [put, look]
    by_cases h : k' = k
    · rw [if_pos h, if_pos h.symm]
    · rw [if_neg h, if_neg (fun h' => h h'.symm)]
  | cons e l ih =>
    obtain ⟨k1, v1⟩ := e
    have ho' := List.pairwise_cons.1 ho
    simp only [put]
    split
    · simp only [look]
      by_cases h : k' = k
      · rw [if_pos h, if_pos h.symm]
      · rw [if_neg h, if_neg (fun h' => h h'.symm)]
    · rename_i h1
      split
      · rename_i h2
        simp only [look, ih ho'.2]
        by_cases h : k1 = k'
        · have : ¬ k' = k := by
            intro h'
            rw [← h', ← h, Net.strLt_irrefl] at h2
            simp at h2
          rw [if_pos h, if_neg this]
          rw [if_pos h]
        · rw [if_neg h, if_neg h]
      · rename_i h2
        have : k = k1 := Net.strLt_total (by simpa using h1) (by simpa using h2)
        subst this
        simp only [look]
        by_cases h : k' = k
        · rw [if_pos h, if_pos h.symm]
        · rw [if_neg h, if_neg (fun h' => h h'.symm), if_neg (fun h' => h h'.symm)]

theorem mem_put {k v : Bytes} {l : Entries} {e : Bytes × Bytes} (h : e ∈ put k v l) : e = (k, v) ∨ e ∈ l := by
  induction l with
  | nil => simpa [put] using h
  | cons x l ih =>
    obtain ⟨k1, v1⟩ := x
    simp only [put] at h
    split at h
    · simpa using h
    · split at h
      · rcases List.mem_cons.1 h with h | h
        · exact Or.inr (by simp [h])
        · rcases ih h with h | h
          · exact Or.inl h
          · exact Or.inr (by simp [h])
      · rcases List.mem_cons.1 h with h | h
        · exact Or.inl h
        · exact Or.inr (by simp [h])

theorem put_ordered {k v : Bytes} {l : Entries} (ho : Ordered l) : Ordered (put k v l) := by
  induction l with
  | nil => simp [put, Ordered]
  | cons x l ih =>
    obtain ⟨k1, v1⟩ := x
    have ho' := List.pairwise_cons.1 ho
    simp only [put]
    split
    · rename_i h1
      refine List.pairwise_cons.2 ⟨fun e he => ?_, ho⟩
      rcases List.mem_cons.1 he with rfl | he
      · exact h1
      · exact Net.strLt_trans h1 (ho'.1 e he)
    · rename_i h1
      split
      · rename_i h2
        refine List.pairwise_cons.2 ⟨fun e he => ?_, ih ho'.2⟩
        rcases mem_put he with rfl | he
        · exact h2
        · exact ho'.1 e he
      · rename_i h2
        have : k = k1 := Net.strLt_total (by simpa using h1) (by simpa using h2)
        subst this
        exact List.pairwise_cons.2 ⟨ho'.1, ho'.2⟩

theorem look_mem {k v : Bytes} {l : Entries} (ho : Ordered l) : look k l = some v ↔ (k, v) ∈ l := by
  induction l with
  | nil => simp [look]
  | cons x l ih =>
    obtain ⟨k1, v1⟩ := x
    have ho' := List.pairwise_cons.1 ho
    simp only [look, List.mem_cons, Prod.mk.injEq]
    split
    · rename_i h
      subst h
      constructor
      · intro h; injection h with h; exact Or.inl ⟨rfl, h.symm⟩
      · rintro (⟨-, rfl⟩ | h)
        · rfl
        · have := ho'.1 _ h
          rw [Net.strLt_irrefl] at this
          simp at this
    · rename_i h
      rw [ih ho'.2]
      exact ⟨Or.inr, fun h' => h'.elim (fun h' => absurd h'.1.symm h) id⟩

/-- Two ordered lists with the same values are equal. -/
theorem ordered_ext {l l' : Entries} (ho : Ordered l) (ho' : Ordered l') (h : ∀ k, look k l = look k l') : l = l' := by
  have hmem : ∀ e, e ∈ l ↔ e ∈ l' := by
    rintro ⟨k, v⟩
    rw [← look_mem ho, ← look_mem ho', h k]
  have asymm : ∀ {a b : Bytes}, Net.strLt a b = true → Net.strLt b a = true → False := by
    intro a b h1 h2
    have := Net.strLt_trans h1 h2
    rw [Net.strLt_irrefl] at this
    simp at this
  clear h
  induction l generalizing l' with
  | nil =>
    cases l' with
    | nil => rfl
    | cons y l' => exact absurd ((hmem y).2 (by simp)) (by simp)
  | cons x l ih =>
    cases l' with
    | nil => exact absurd ((hmem x).1 (by simp)) (by simp)
    | cons y l' =>
      have hx := List.pairwise_cons.1 ho
      have hy := List.pairwise_cons.1 ho'
      have exy : x = y := by
        rcases List.mem_cons.1 ((hmem x).1 (by simp)) with h | h
        · exact h
        · rcases List.mem_cons.1 ((hmem y).2 (by simp)) with h' | h'
          · exact h'.symm
          · exact (asymm (hy.1 x h) (hx.1 y h')).elim
      subst exy
      congr 1
      refine ih hx.2 hy.2 (fun e => ?_)
      have hne : ∀ {m : Entries}, (∀ a ∈ m, Net.strLt x.1 a.1 = true) → e ∈ m → e ≠ x := by
        rintro m hm he rfl
        have := hm e he
        rw [Net.strLt_irrefl] at this
        simp at this
      constructor
      · intro he
        exact (List.mem_cons.1 ((hmem e).1 (List.mem_cons_of_mem _ he))).resolve_left (hne hx.1 he)
      · intro he
        exact (List.mem_cons.1 ((hmem e).2 (List.mem_cons_of_mem _ he))).resolve_left (hne hy.1 he)

/-! ### C102: additional descriptions -/

theorem descLoop_iff (es : List Raw) (m m' : Entries) :
    descLoop m es = (true, m') ↔ ∃ l, Listed es l ∧ m' = l.foldl (fun m e => put e.1 e.2 m) m := by
  induction es generalizing m with
  | nil =>
    simp only [descLoop, Prod.mk.injEq, true_and]
    constructor
    · rintro rfl; exact ⟨[], .nil, rfl⟩
    · rintro ⟨l, h, rfl⟩; cases h; rfl
  | cons e es ih =>
    by_cases ht : e.type = 512
    · cases hp : parseElements e.value with
      | none =>
        simp only [descLoop, ht, if_true, hp, Prod.mk.injEq, Bool.false_eq_true, false_and, false_iff]
        rintro ⟨l, h, -⟩
        cases h with
        | entry _ hr =>
          rw [parseElements_iff.2 hr] at hp
          simp at hp
        | skip h => exact h ht
      | some xs =>
        have hxs := parseElements_iff.1 hp
        by_cases hkv : ∃ k v, xs = [k, v] ∧ k.type = 513 ∧ v.type = 514
        · obtain ⟨k, v, rfl, hk, hv⟩ := hkv
          simp only [descLoop, ht, if_true, hp, hk, hv, and_self]
          rw [ih]
          constructor
          · rintro ⟨l, hl, rfl⟩
            exact ⟨(k.value, v.value) :: l, .entry ht hxs hk hv hl, rfl⟩
          · rintro ⟨l, hl, rfl⟩
            cases hl with
            | entry _ hr hk' hv' hl' =>
              have := parseElements_iff.2 hr
              rw [hp] at this
              simp only [Option.some.injEq, List.cons.injEq, and_true] at this
              obtain ⟨rfl, rfl⟩ := this
              exact ⟨_, hl', rfl⟩
            | skip h => exact absurd ht h
        · have hf : descLoop m (e :: es) = (false, m) := by
            simp only [descLoop, ht, if_true, hp]
            split
            · rename_i k v heq
              simp only [Option.some.injEq] at heq
              rw [if_neg (fun h => hkv ⟨k, v, heq, h⟩)]
            · rfl
          rw [hf]
          simp only [Prod.mk.injEq, Bool.false_eq_true, false_and, false_iff]
          rintro ⟨l, h, -⟩
          cases h with
          | entry _ hr hk hv _ =>
            have := parseElements_iff.2 hr
            rw [hp] at this
            simp only [Option.some.injEq] at this
            exact hkv ⟨_, _, this, hk, hv⟩
          | skip h => exact h ht
    · simp only [descLoop, ht, if_false]
      split
      · rename_i hc
        simp only [Prod.mk.injEq, Bool.false_eq_true, false_and, false_iff]
        rintro ⟨l, h, -⟩
        cases h with
        | entry h => exact ht h
        | skip _ hi => exact (isCritical_iff _).1 hc hi
      · rename_i hc
        rw [ih]
        have hi : Ignorable e := Classical.not_not.1 (fun h => hc ((isCritical_iff _).2 h))
        constructor
        · rintro ⟨l, hl, rfl⟩; exact ⟨l, .skip ht hi hl, rfl⟩
        · rintro ⟨l, hl, rfl⟩
          cases hl with
          | entry h => exact absurd h ht
          | skip _ _ h => exact ⟨l, h, rfl⟩

theorem foldl_put (l : List (Bytes × Bytes)) (m : Entries) (ho : Ordered m) :
    Ordered (l.foldl (fun m e => put e.1 e.2 m) m) ∧
    ∀ k, look k (l.foldl (fun m e => put e.1 e.2 m) m) = (lastFor k l).or (look k m) := by
  induction l generalizing m with
  | nil => exact ⟨ho, fun k => by simp [lastFor]⟩
  | cons e l ih =>
    have h := ih (put e.1 e.2 m) (put_ordered ho)
    refine ⟨h.1, fun k => ?_⟩
    rw [List.foldl_cons, h.2 k, look_put _ _ _ _ ho]
    simp only [lastFor, List.reverse_cons, List.find?_append, List.find?_singleton]
    cases hf : l.reverse.find? (fun e => decide (e.1 = k)) with
    | some x => simp
    | none =>
      by_cases hk : e.1 = k
      · simp [hk]
      · have : ¬ k = e.1 := fun h => hk h.symm
        simp [hk, this]

theorem listed_fun {es : List Raw} {l l' : List (Bytes × Bytes)} (h : Listed es l) (h' : Listed es l') : l = l' := by
  induction h generalizing l' with
  | nil => cases h'; rfl
  | entry h1 h2 h3 h4 _ ih =>
    cases h' with
    | entry _ h2' _ _ h5' =>
      have := parseElements_iff.2 h2
      rw [parseElements_iff.2 h2'] at this
      simp only [Option.some.injEq, List.cons.injEq, and_true] at this
      obtain ⟨rfl, rfl⟩ := this
      rw [ih h5']
    | skip h => exact absurd h1 h
  | skip h1 _ _ ih =>
    cases h' with
    | entry h => exact absurd h h1
    | skip _ _ h => exact ih h

/-- Decoding: exactly the elements made of entries and of elements that may be ignored are accepted; each key then has the
value of its last entry, and the keys are iterated in increasing order. -/
theorem C102_decode (d d' : Desc) (b : Raw) :
    d.wireDecode b = (true, d') ↔
      b.type = 258 ∧ ∃ es l, ReadsAs b.value es ∧ Listed es l ∧ d'.wire = some b ∧ Ordered d'.info ∧
        ∀ k, look k d'.info = lastFor k l := by
  unfold Desc.wireDecode
  by_cases ht : b.type = 258
  · simp only [ht, ne_eq, not_true_eq_false, if_false, true_and]
    cases hp : parseElements b.value with
    | none =>
      simp only [Prod.mk.injEq, Bool.false_eq_true, false_and, false_iff]
      rintro ⟨es, l, h, -⟩
      rw [parseElements_iff.2 h] at hp
      simp at hp
    | some es =>
      have hr := parseElements_iff.1 hp
      dsimp only
      constructor
      · intro h
        have h1 := (Prod.mk.injEq .. ▸ h : _ ∧ _)
        obtain ⟨h1, rfl⟩ := h1
        obtain ⟨l, hl, hm⟩ := (descLoop_iff es [] (descLoop [] es).2).1 (by rw [← h1])
        have hf := foldl_put l [] (by simp [Ordered])
        refine ⟨es, l, hr, hl, rfl, ?_, fun k => ?_⟩
        · show Ordered (descLoop [] es).2
          rw [hm]; exact hf.1
        · show look k (descLoop [] es).2 = _
          rw [hm, hf.2 k]; simp [look]
      · rintro ⟨es', l, hr', hl, hw, ho, hlook⟩
        have := parseElements_iff.2 hr'
        rw [hp] at this
        injection this with this
        subst this
        have hm := (descLoop_iff es [] _).2 ⟨l, hl, rfl⟩
        have hf := foldl_put l [] (by simp [Ordered])
        rw [hm]
        have : d'.info = l.foldl (fun m e => put e.1 e.2 m) [] :=
          ordered_ext ho hf.1 (fun k => by rw [hlook k, hf.2 k]; simp [look])
        obtain ⟨w, i⟩ := d'
        simp only at hw this
        rw [hw, this]
  · simp [ht]

/-- `set` gives the key this value and leaves the others alone. -/
theorem C102_set (d : Desc) (k v k' : Bytes) (ho : Ordered d.info) :
    (d.step (.set k v)).1 = true ∧ Ordered (d.step (.set k v)).2.info ∧
    look k' (d.step (.set k v)).2.info = if k' = k then some v else look k' d.info :=
  ⟨rfl, put_ordered ho, look_put k v k' d.info ho⟩

theorem step_ordered {d : Desc} (ho : Ordered d.info) (op : DescOp) : Ordered (d.step op).2.info := by
  cases op with
  | set k v => exact put_ordered ho
  | encode =>
    simp only [Desc.step, Desc.wireEncode]
    cases d.wire <;> exact ho
  | decode b =>
    simp only [Desc.step, Desc.wireDecode]
    split
    · exact ho
    · cases parseElements b.value with
      | none => exact ho
      | some es =>
        dsimp only
        have key : ∀ (es : List Raw) (m : Entries), Ordered m → Ordered (descLoop m es).2 := by
          intro es
          induction es with
          | nil => intro m h; exact h
          | cons e es ih =>
            intro m h
            simp only [descLoop]
            split
            · split
              · split
                · exact ih _ (put_ordered h)
                · exact h
              · exact h
            · split
              · exact h
              · exact ih _ h
        exact key es [] (by simp [Ordered])

theorem run_ordered {d d' : Desc} {ops : List DescOp} (ho : Ordered d.info) (h : d.run ops = some d') : Ordered d'.info := by
  induction ops generalizing d with
  | nil => simp only [Desc.run, Option.some.injEq] at h; exact h ▸ ho
  | cons op ops ih =>
    simp only [Desc.run] at h
    split at h
    · exact ih (step_ordered ho op) h
    · simp at h

/-- After any history the entries are iterated in increasing order of their keys, each key once. -/
theorem C102_iteration (ops : List DescOp) (d : Desc) (h : Desc.run {} ops = some d) : Ordered d.info :=
  run_ordered (by simp [Ordered]) h

/-- The elements of an encoding made from the entries. -/
def entryRaw (e : Bytes × Bytes) : Raw := binaryBlock 512 (tlvBytes 513 e.1 ++ tlvBytes 514 e.2)

theorem encode_reads (l : Entries) (hs : ((l.map entryBytes).flatten).length < 2 ^ 64) :
    ReadsAs ((l.map entryBytes).flatten) (l.map entryRaw) ∧ Listed (l.map entryRaw) l := by
  have hlen : ∀ e ∈ l, (tlvBytes 513 e.1 ++ tlvBytes 514 e.2).length < 2 ^ 64 := by
    intro e he
    have h1 : (entryBytes e).length ≤ ((l.map entryBytes).flatten).length := by
      clear hs
      induction l with
      | nil => simp at he
      | cons x l ih =>
        rcases List.mem_cons.1 he with rfl | he
        · simp
        · have := ih he; simp at this ⊢; omega
    have h2 := tlvBytes_ge 512 (tlvBytes 513 e.1 ++ tlvBytes 514 e.2)
    have h3 : (entryBytes e).length = (tlvBytes 512 (tlvBytes 513 e.1 ++ tlvBytes 514 e.2)).length := rfl
    omega
  have hwf : ∀ r ∈ l.map entryRaw, RawWF r := by
    intro r hr
    obtain ⟨e, he, rfl⟩ := List.mem_map.1 hr
    exact binaryBlock_wf (by decide) (by decide) (hlen e he)
  have hw : (l.map entryRaw).map Raw.wire = l.map entryBytes := by
    rw [List.map_map]; rfl
  refine ⟨by rw [← hw]; exact readsAs_of hwf, ?_⟩
  clear hwf hw hs
  induction l with
  | nil => exact .nil
  | cons e l ih =>
    have h := hlen e (by simp)
    rw [List.length_append] at h
    have g1 := tlvBytes_ge 513 e.1
    have g2 := tlvBytes_ge 514 e.2
    have hr : ReadsAs (tlvBytes 513 e.1 ++ tlvBytes 514 e.2) [binaryBlock 513 e.1, binaryBlock 514 e.2] := by
      have := readsAs_of (es := [binaryBlock 513 e.1, binaryBlock 514 e.2]) (by
        intro r hr
        rcases List.mem_cons.1 hr with rfl | hr
        · exact binaryBlock_wf (by decide) (by decide) (by omega)
        · rw [List.mem_singleton.1 hr]
          exact binaryBlock_wf (by decide) (by decide) (by omega))
      simpa [binaryBlock] using this
    exact Listed.entry (e := entryRaw e) (k := binaryBlock 513 e.1) (v := binaryBlock 514 e.2) rfl hr rfl rfl (ih (fun e' he' => hlen e' (List.mem_cons_of_mem _ he')))

theorem lastFor_ordered {l : Entries} (ho : Ordered l) (k : Bytes) : lastFor k l = look k l := by
  have h := (foldl_put l [] (by simp [Ordered]))
  have hf : ∀ (l m : Entries), Ordered (m ++ l) → l.foldl (fun m e => put e.1 e.2 m) m = m ++ l := by
    intro l
    induction l with
    | nil => intro m _; simp
    | cons e l ih =>
      intro m hm
      have hput : ∀ m : Entries, (∀ x ∈ m, Net.strLt x.1 e.1 = true) → put e.1 e.2 m = m ++ [e] := by
        intro m
        induction m with
        | nil => intro _; rfl
        | cons x m ih2 =>
          intro hx
          have hx1 := hx x (by simp)
          have : ¬ Net.strLt e.1 x.1 = true := by
            intro h2
            have := Net.strLt_trans hx1 h2
            rw [Net.strLt_irrefl] at this
            simp at this
          obtain ⟨x1, x2⟩ := x
          simp only [put]
          rw [if_neg this, if_pos hx1, ih2 (fun y hy => hx y (List.mem_cons_of_mem _ hy))]
          rfl
      rw [List.foldl_cons, hput m]
      · rw [ih (m ++ [e]) (by simpa using hm)]
        simp
      · intro x hx
        exact (List.pairwise_append.1 hm).2.2 x hx e (by simp)
  have := h.2 k
  rw [hf l [] (by simpa using ho)] at this
  simpa [look] using this.symm

/-- Encoding an object that holds no encoding lists the entries, in order; decoding it gives them back. -/
theorem C102_roundtrip (ops : List DescOp) (d d0 : Desc) (h : Desc.run {} ops = some d) (hw : d.wire = none)
    (hs : d.encode.wire.length < 2 ^ 64) :
    ∃ es, d.wireEncode.2.type = 258 ∧ ReadsAs d.wireEncode.2.value es ∧ Listed es d.info ∧
      d0.wireDecode d.wireEncode.2 = (true, ⟨some d.wireEncode.2, d.info⟩) := by
  have ho := C102_iteration ops d h
  have hlen : ((d.info.map entryBytes).flatten).length < 2 ^ 64 := by
    have := tlvBytes_ge 258 ((d.info.map entryBytes).flatten)
    simp only [Desc.encode, binaryBlock] at hs
    omega
  obtain ⟨h1, h2⟩ := encode_reads d.info hlen
  have he : d.wireEncode.2 = d.encode := by unfold Desc.wireEncode; rw [hw]
  rw [he]
  exact ⟨_, rfl, h1, h2, (C102_decode _ _ _).2 ⟨rfl, _, _, h1, h2, rfl, ho, fun k => (lastFor_ordered ho k).symm⟩⟩

/-- The full claim: after any history of calls that return, the encoding is that of the current entries. -/
def C102_current_claim : Prop :=
  ∀ (ops : List DescOp) (d d' : Desc), Desc.run {} ops = some d → d.encode.wire.length < 2 ^ 64 →
    Desc.wireDecode {} d.wireEncode.2 = (true, d') → d'.info = d.info

/-- `set` does not discard the cached encoding: once encoded or decoded, what is set later is never encoded. -/
theorem C102_current_counterexample : ¬ C102_current_claim := by
  intro h
  have := h [.set [107] [118], .encode, .set [107] [119]] ⟨some (binaryBlock 258 (entryBytes ([107], [118]))), [([107], [119])]⟩
    ⟨some (binaryBlock 258 (entryBytes ([107], [118]))), [([107], [118])]⟩ rfl (by decide) (by rfl)
  simp at this

/-- Histories in which nothing is set once there is an encoding. -/
def SetFirst (ops : List DescOp) : Prop :=
  ∃ sets rest, ops = sets ++ rest ∧ (∀ op ∈ sets, ∃ k v, op = .set k v) ∧ ∀ op ∈ rest, ∀ k v, op ≠ .set k v

theorem run_append (a b : List DescOp) (d : Desc) : d.run (a ++ b) = (d.run a).bind (fun d => d.run b) := by
  induction a generalizing d with
  | nil => rfl
  | cons op a ih =>
    simp only [List.cons_append, Desc.run]
    split
    · exact ih _
    · rfl

/-- The claim holds for these. -/
theorem C102_current_partial (ops : List DescOp) (d d' : Desc) (h : Desc.run {} ops = some d) (hf : SetFirst ops)
    (hs : ∀ k d1, Desc.run {} (ops.take k) = some d1 → d1.encode.wire.length < 2 ^ 64)
    (hd : Desc.wireDecode {} d.wireEncode.2 = (true, d')) : d'.info = d.info := by
  obtain ⟨sets, rest, rfl, h1, h2⟩ := hf
  rw [run_append] at h
  obtain ⟨dm, hm, hr⟩ := Option.bind_eq_some_iff.1 h
  have hmw : dm.wire = none := by
    have key : ∀ (l : List DescOp) (d d' : Desc), (∀ op ∈ l, ∃ k v, op = .set k v) → d.wire = none → d.run l = some d' → d'.wire = none := by
      intro l
      induction l with
      | nil => intro d d' _ hw hr; simp only [Desc.run, Option.some.injEq] at hr; exact hr ▸ hw
      | cons op l ih =>
        intro d d' hl hw hr
        obtain ⟨k, v, rfl⟩ := hl op (by simp)
        simp only [Desc.run, Desc.step, if_true] at hr
        exact ih { d with info := put k v d.info } _ (fun op ho => hl op (List.mem_cons_of_mem _ ho)) hw hr
    exact key sets {} dm h1 rfl hm
  have hmo := C102_iteration sets dm hm
  have hms := hs sets.length dm (by simpa using hm)
  -- an encoding, once there is one, decodes to the entries
  have inv : ∀ (l : List DescOp) (d d' : Desc), (∀ op ∈ l, ∀ k v, op ≠ .set k v) → Ordered d.info →
      d.encode.wire.length < 2 ^ 64 → (∀ w, d.wire = some w → ∃ x, Desc.wireDecode {} w = (true, x) ∧ x.info = d.info) →
      d.run l = some d' →
      ((d'.wire = none → d'.encode.wire.length < 2 ^ 64 ∧ Ordered d'.info) ∧
        ∀ w, d'.wire = some w → ∃ x, Desc.wireDecode {} w = (true, x) ∧ x.info = d'.info) := by
    intro l
    induction l with
    | nil =>
      intro d d' _ ho hsz hi hr
      simp only [Desc.run, Option.some.injEq] at hr
      subst hr
      exact ⟨fun _ => ⟨hsz, ho⟩, hi⟩
    | cons op l ih =>
      intro d d' hl ho hsz hi hr
      simp only [Desc.run] at hr
      split at hr
      · rename_i hok
        have hl' : ∀ op ∈ l, ∀ k v, op ≠ .set k v := fun op ho => hl op (List.mem_cons_of_mem _ ho)
        cases op with
        | set k v => exact absurd rfl (hl _ (by simp) k v)
        | encode =>
          simp only [Desc.step, Desc.wireEncode] at hr
          cases hw : d.wire with
          | some w =>
            rw [hw] at hr
            exact ih _ _ hl' ho hsz hi hr
          | none =>
            rw [hw] at hr
            refine ih { d with wire := some d.encode } _ hl' ho hsz ?_ hr
            intro w hw'
            simp only [Option.some.injEq] at hw'
            subst hw'
            have hlen : ((d.info.map entryBytes).flatten).length < 2 ^ 64 := by
              have := tlvBytes_ge 258 ((d.info.map entryBytes).flatten)
              simp only [Desc.encode, binaryBlock] at hsz
              omega
            obtain ⟨g1, g2⟩ := encode_reads d.info hlen
            exact ⟨⟨some d.encode, d.info⟩, (C102_decode _ _ _).2 ⟨rfl, _, _, g1, g2, rfl, ho, fun k => (lastFor_ordered ho k).symm⟩, rfl⟩
        | decode b =>
          simp only [Desc.step] at hr hok
          have hdec : d.wireDecode b = (true, (d.wireDecode b).2) := by rw [← hok]
          obtain ⟨q1, es, l1, q2, q3, q4, q5, q6⟩ := (C102_decode d _ b).1 hdec
          have hx : Desc.wireDecode {} b = (true, (d.wireDecode b).2) :=
            (C102_decode {} _ b).2 ⟨q1, es, l1, q2, q3, q4, q5, q6⟩
          have := hl
          refine ⟨fun hn => ?_, fun w hw => ?_⟩
          · exfalso
            have keep : ∀ (l : List DescOp) (d d' : Desc), (∀ op ∈ l, ∀ k v, op ≠ .set k v) → d.wire.isSome = true →
                d.run l = some d' → d'.wire.isSome = true := by
              intro l
              induction l with
              | nil => intro d d' _ hw hr; simp only [Desc.run, Option.some.injEq] at hr; exact hr ▸ hw
              | cons op l ih =>
                intro d d' hl hw hr
                simp only [Desc.run] at hr
                split at hr
                · refine ih _ _ (fun op ho => hl op (List.mem_cons_of_mem _ ho)) ?_ hr
                  cases op with
                  | set k v => exact absurd rfl (hl _ (by simp) k v)
                  | encode =>
                    simp only [Desc.step, Desc.wireEncode]
                    cases hd : d.wire with
                    | some w => simp [hd]
                    | none => simp
                  | decode b' =>
                    simp only [Desc.step, Desc.wireDecode]
                    split
                    · exact hw
                    · split <;> rfl
                · simp at hr
            have := keep l _ d' hl' (by rw [q4]; rfl) hr
            rw [hn] at this
            simp at this
          · -- the wires that follow are decoded ones or this one
            have last : ∀ (l : List DescOp) (d d' : Desc), (∀ op ∈ l, ∀ k v, op ≠ .set k v) →
                (∃ w, d.wire = some w ∧ ∃ x, Desc.wireDecode {} w = (true, x) ∧ x.info = d.info) → d.run l = some d' →
                ∃ w, d'.wire = some w ∧ ∃ x, Desc.wireDecode {} w = (true, x) ∧ x.info = d'.info := by
              intro l
              induction l with
              | nil => intro d d' _ hw hr; simp only [Desc.run, Option.some.injEq] at hr; exact hr ▸ hw
              | cons op l ih =>
                intro d d' hl hw hr
                simp only [Desc.run] at hr
                split at hr
                · rename_i hok
                  refine ih _ _ (fun op ho => hl op (List.mem_cons_of_mem _ ho)) ?_ hr
                  cases op with
                  | set k v => exact absurd rfl (hl _ (by simp) k v)
                  | encode =>
                    obtain ⟨w, hw1, hw2⟩ := hw
                    simp only [Desc.step, Desc.wireEncode, hw1]
                    exact ⟨w, rfl, hw2⟩
                  | decode b' =>
                    simp only [Desc.step] at hok ⊢
                    have hdec : d.wireDecode b' = (true, (d.wireDecode b').2) := by rw [← hok]
                    obtain ⟨q1, es, l1, q2, q3, q4, q5, q6⟩ := (C102_decode d _ b').1 hdec
                    exact ⟨b', q4, _, (C102_decode {} _ b').2 ⟨q1, es, l1, q2, q3, q4, q5, q6⟩, rfl⟩
                · simp at hr
            obtain ⟨w', hw', hx'⟩ := last l _ d' hl' ⟨b, q4, _, hx, rfl⟩ hr
            rw [hw] at hw'
            injection hw' with hw'
            subst hw'
            exact hx'
      · simp at hr
  obtain ⟨i1, i2⟩ := inv rest dm d h2 hmo hms (fun w hw => by rw [hmw] at hw; simp at hw) hr
  cases hw : d.wire with
  | some w =>
    have he : d.wireEncode.2 = w := by unfold Desc.wireEncode; rw [hw]
    obtain ⟨x, hx1, hx2⟩ := i2 w hw
    rw [he, hx1] at hd
    simp only [Prod.mk.injEq, true_and] at hd
    rw [← hd, hx2]
  | none =>
    obtain ⟨hsz, ho⟩ := i1 hw
    have hrun : Desc.run {} (sets ++ rest) = some d := by rw [run_append, hm]; exact hr
    obtain ⟨-, -, -, -, hx⟩ := C102_roundtrip (sets ++ rest) d {} hrun hw hsz
    rw [hx] at hd
    simp only [Prod.mk.injEq, true_and] at hd
    rw [← hd]

/-- A failed decode should leave an object whose encoding is not the refused one. -/
def C102_failed_claim : Prop :=
  ∀ (d d' : Desc) (b : Raw), d.wireDecode b = (false, d') → d'.wireEncode.2 ≠ b

/-- The refused element stays as the encoding of the object. -/
theorem C102_failed_counterexample : ¬ C102_failed_claim := by
  intro h
  exact h {} ⟨some (binaryBlock 258 [1, 0]), []⟩ (binaryBlock 258 [1, 0]) (by rfl) rfl

example : SetFirst [.set [107] [118], .set [97] [98], .encode] ∧
    ∃ d, Desc.run {} [.set [107] [118], .set [97] [98], .encode] = some d ∧ look [107] d.info = some [118] :=
  ⟨⟨[.set [107] [118], .set [97] [98]], [.encode], rfl, by simp, by simp⟩, _, rfl, by decide⟩

/-! ### C103: safe bags -/

/-- Decoding: exactly a Data packet followed by an EncryptedKey is accepted, whatever the object held before. -/
theorem C103_decode (s s' : SBag) (b : Raw) :
    s.wireDecode b = (true, s') ↔
      b.type = 128 ∧ ∃ c k d, ReadsAs b.value [c, k] ∧ s.cert.wireDecode c = (true, d) ∧ k.type = 129 ∧
        s' = ⟨d, k.value⟩ := by
  unfold SBag.wireDecode
  by_cases ht : b.type = 128
  · simp only [ht, ne_eq, not_true_eq_false, if_false, true_and]
    cases hp : parseElements b.value with
    | none =>
      simp only [Prod.mk.injEq, Bool.false_eq_true, false_and, false_iff]
      rintro ⟨c, k, d, h, -⟩
      rw [parseElements_iff.2 h] at hp
      simp at hp
    | some es =>
      have hr := parseElements_iff.1 hp
      have uniq : ∀ {c k : Raw}, ReadsAs b.value [c, k] → es = [c, k] := by
        intro c k h
        have := parseElements_iff.2 h
        rw [hp] at this
        injection this
      cases es with
      | nil =>
        simp only [Prod.mk.injEq, Bool.false_eq_true, false_and, false_iff]
        rintro ⟨c, k, d, h, -⟩
        exact absurd (uniq h) (by simp)
      | cons c es =>
        dsimp only
        cases hd : (s.cert.wireDecode c).1 with
        | false =>
          simp only [Bool.false_eq_true, if_false, Prod.mk.injEq, false_and, false_iff]
          rintro ⟨c', k, d, h, h2, -⟩
          have := uniq h
          simp only [List.cons.injEq] at this
          rw [this.1, h2] at hd
          simp at hd
        | true =>
          simp only [if_true]
          cases es with
          | nil =>
            simp only [Prod.mk.injEq, Bool.false_eq_true, false_and, false_iff]
            rintro ⟨c', k, d, h, -⟩
            exact absurd (uniq h) (by simp)
          | cons k rest =>
            dsimp only
            by_cases hk : k.type = 129
            · simp only [hk, if_true, Prod.mk.injEq]
              constructor
              · rintro ⟨h1, rfl⟩
                cases rest with
                | nil => exact ⟨c, k, (s.cert.wireDecode c).2, hr, by rw [← hd], hk, rfl⟩
                | cons => simp at h1
              · rintro ⟨c', k', d, h, h2, -, rfl⟩
                have := uniq h
                simp only [List.cons.injEq] at this
                obtain ⟨rfl, rfl, rfl⟩ := this
                exact ⟨rfl, by rw [h2]⟩
            · simp only [hk, if_false, Prod.mk.injEq, Bool.false_eq_true, false_and, false_iff]
              rintro ⟨c', k', d, h, h2, h3, rfl⟩
              have := uniq h
              simp only [List.cons.injEq] at this
              obtain ⟨rfl, rfl, rfl⟩ := this
              exact hk h3
  · simp [ht]

/-- A bag with a certificate that can be encoded: the bag encodes, and decoding gives the same certificate and key, and the
same encoding again. -/
theorem C103_roundtrip (s s0 : SBag) (h : DataWF s.cert.f) (hs : ∀ b, s.wireEncode = some b → b.wire.length < 2 ^ 64) :
    ∃ b s', s.wireEncode = some b ∧ s0.wireDecode b = (true, s') ∧ s'.cert.f = s.cert.f ∧ s'.key = s.key ∧
      s'.wireEncode = some b := by
  obtain ⟨w, c, hw, hb, hdec, hall⟩ := C23_roundtrip s.cert.f h
  have he : s.wireEncode = some (binaryBlock 128 (w ++ tlvBytes 129 s.key)) := by
    unfold SBag.wireEncode; rw [hw]
  have hsz := hs _ he
  simp only [binaryBlock] at hsz
  have g1 := tlvBytes_ge 128 (w ++ tlvBytes 129 s.key)
  have g2 := tlvBytes_ge 129 s.key
  rw [List.length_append] at g1
  obtain ⟨hwc, hcwf⟩ := fromBuffer_iff.1 hb
  have hcw : c.wire = w := by simpa using hwc.symm
  have hr : ReadsAs (w ++ tlvBytes 129 s.key) [c, binaryBlock 129 s.key] := by
    have := readsAs_of (es := [c, binaryBlock 129 s.key]) (by
      intro r hr
      rcases List.mem_cons.1 hr with rfl | hr
      · exact hcwf
      · rw [List.mem_singleton.1 hr]
        exact binaryBlock_wf (by decide) (by decide) (by omega))
    simpa [binaryBlock, hcw] using this
  obtain ⟨e1, es, e2, e3⟩ := (dataDecode_iff _ _).1 hdec
  have hd := (DObj.wireDecode_iff s0.cert ⟨s.cert.f, some c.wire, []⟩ c).2 ⟨e1, es, _, e2, e3, rfl⟩
  refine ⟨_, ⟨⟨s.cert.f, some c.wire, []⟩, s.key⟩, he, (C103_decode _ _ _).2 ⟨rfl, c, _, _, hr, hd, rfl, rfl⟩, rfl, rfl, ?_⟩
  unfold SBag.wireEncode
  rw [hw]

/-- The full claim: the packet in the bag is the certificate that was put into it, octet for octet. -/
def C103_octets_claim : Prop :=
  ∀ (c b : Raw) (d : DObj) (s : SBag) (key : Bytes), RawWF c → (DObj.init []).wireDecode c = (true, d) →
    (SBag.make d key).wireEncode = some b → SBag.init.wireDecode b = (true, s) → s.cert.wire = some c.wire

/-- A certificate with an element that is to be ignored: the bag drops it, although the signature covers it. -/
def extraCert : Raw :=
  binaryBlock 6 ([7, 3, 8, 1, 65] ++ [20, 0] ++ [32, 0] ++ [22, 3, 27, 1, 0] ++ [23, 1, 9])

/-- Such a certificate cannot be verified any more when it is taken out of the bag. -/
theorem C103_octets_counterexample : ¬ C103_octets_claim ∧
    (∃ d s b, (DObj.init []).wireDecode extraCert = (true, d) ∧ (SBag.make d []).wireEncode = some b ∧
      SBag.init.wireDecode b = (true, s) ∧ (parseElements extraCert.value).bind signedRange ≠
        (s.cert.wire.bind (fun w => fromRange w true)).bind (fun r => (parseElements r.value).bind signedRange)) := by
  constructor
  · intro h
    have := h extraCert _ _ _ [] (binaryBlock_wf (by decide) (by decide) (by decide)) (by rfl) (by rfl) (by rfl)
    exact absurd this (by decide)
  · exact ⟨_, _, _, rfl, rfl, rfl, by decide +kernel⟩

/-- It is, for certificates whose octets are the encoding of their members, as those made by this library are. -/
theorem C103_octets_partial (d : DObj) (w : Bytes) (key : Bytes) (s0 : SBag) (h : DataWF d.f) (hw : d.wire = some w)
    (hf : d.f.encode = some w) (hs : ∀ b, (SBag.make d key).wireEncode = some b → b.wire.length < 2 ^ 64) :
    ∃ b s', (SBag.make d key).wireEncode = some b ∧ s0.wireDecode b = (true, s') ∧ s'.cert.wire = d.wire ∧ s'.key = key := by
  obtain ⟨b, s', h1, h2, h3, h4, h5⟩ := C103_roundtrip (SBag.make d key) s0 h hs
  refine ⟨b, s', h1, h2, ?_, h4⟩
  obtain ⟨-, c, k, d', hr, hd, -, rfl⟩ := (C103_decode _ _ _).1 h2
  obtain ⟨-, es, f, -, -, rfl⟩ := (DObj.wireDecode_iff _ _ _).1 hd
  -- the first element of the bag is the packet
  have hval : b.value = w ++ tlvBytes 129 key := by
    unfold SBag.wireEncode SBag.make at h1
    dsimp only at h1
    rw [hf] at h1
    simp only [Option.some.injEq] at h1
    rw [← h1]
    rfl
  obtain ⟨w', c', hw', hb', -, -⟩ := C23_roundtrip d.f h
  rw [hf] at hw'
  injection hw' with hw'
  subst hw'
  obtain ⟨hwc, hcwf⟩ := fromBuffer_iff.1 hb'
  have hcw : c'.wire = w := by simpa using hwc.symm
  have hsz := hs b h1
  have hb1 : b = binaryBlock 128 (w ++ tlvBytes 129 key) := by
    unfold SBag.wireEncode SBag.make at h1
    dsimp only at h1
    rw [hf] at h1
    simp only [Option.some.injEq] at h1
    exact h1.symm
  rw [hb1] at hsz
  simp only [binaryBlock] at hsz
  have g1 := tlvBytes_ge 128 (w ++ tlvBytes 129 key)
  have g2 := tlvBytes_ge 129 key
  rw [List.length_append] at g1
  have hr' : ReadsAs b.value [c', binaryBlock 129 key] := by
    have := readsAs_of (es := [c', binaryBlock 129 key]) (by
      intro r hr
      rcases List.mem_cons.1 hr with rfl | hr
      · exact hcwf
      · rw [List.mem_singleton.1 hr]
        exact binaryBlock_wf (by decide) (by decide) (by omega))
    rw [hval]
    simpa [binaryBlock, hcw] using this
  have := parseElements_iff.2 hr
  rw [parseElements_iff.2 hr'] at this
  simp only [Option.some.injEq, List.cons.injEq] at this
  show some c.wire = d.wire
  rw [hw, ← this.1, hcw]

example : ∃ b s', (SBag.make ⟨sampleData, none, []⟩ [1, 2]).wireEncode = some b ∧ SBag.init.wireDecode b = (true, s') ∧
    s'.cert.f = sampleData ∧ s'.key = [1, 2] := by
  obtain ⟨b, s', h1, h2, h3, h4, -⟩ := C103_roundtrip (SBag.make ⟨sampleData, none, []⟩ [1, 2]) SBag.init sampleData_wf (by
    intro b hb
    have : (((SBag.make ⟨sampleData, none, []⟩ [1, 2]).wireEncode).all (fun b => decide (b.wire.length < 1000))) = true := by
      decide
    rw [hb] at this
    simp at this
    omega)
  exact ⟨b, s', h1, h2, h3, h4⟩

/-! ### C104: certificates -/

/-- The name of a certificate: an identity, `KEY`, and three more components. -/
def CertNamed (n identity : List Comp) (keyId issuer version : Comp) : Prop :=
  n = identity ++ [⟨8, [75, 69, 89]⟩, keyId, issuer, version]

theorem isValidName_iff (n : List Comp) : isValidName n = true ↔ ∃ i k s v, CertNamed n i k s v := by
  unfold isValidName CertNamed
  simp only [Bool.and_eq_true, decide_eq_true_eq, beq_iff_eq]
  constructor
  · rintro ⟨h1, h2⟩
    have hd : (n.drop (n.length - 4)).length = 4 := by rw [List.length_drop]; omega
    match hm : n.drop (n.length - 4), hd with
    | [a, b, c, d], _ =>
      refine ⟨n.take (n.length - 4), b, c, d, ?_⟩
      have : n[n.length - 4]? = some a := by
        have h := congrArg List.head? hm
        rw [List.head?_drop] at h
        simpa using h
      rw [h2] at this
      injection this with this
      rw [show (⟨8, [75, 69, 89]⟩ : Comp) = a from this, ← hm, List.take_append_drop]
  · rintro ⟨i, k, s, v, rfl⟩
    refine ⟨by simp, ?_⟩
    rw [List.length_append, List.length_cons, List.length_cons, List.length_cons, List.length_cons, List.length_nil]
    rw [Nat.add_sub_cancel]
    rw [List.getElem?_append_right (Nat.le_refl _)]
    simp [keyComp]

/-- A Data packet is taken as a certificate exactly if its name is that of a certificate, its content type is Key and it
has a freshness period; the packet is not changed. -/
theorem C104_accept (d d' : DObj) :
    certOf d = some d' ↔ d' = d ∧ (∃ i k s v, CertNamed d.f.name i k s v) ∧ d.f.minfo.type = 2 ∧ 0 < d.f.minfo.getFreshness := by
  unfold certOf
  rw [← isValidName_iff]
  cases hv : isValidName d.f.name with
  | false => simp
  | true =>
    by_cases ht : d.f.minfo.type = 2
    · by_cases hf : d.f.minfo.getFreshness ≤ 0
      · simp only [Bool.not_true, Bool.false_eq_true, if_false, ht, ne_eq, not_true_eq_false, if_pos hf, reduceCtorEq, true_and, false_iff]
        omega
      · simp only [Bool.not_true, Bool.false_eq_true, if_false, ht, ne_eq, not_true_eq_false, if_neg hf, Option.some.injEq, true_and]
        constructor
        · rintro rfl; exact ⟨rfl, by omega⟩
        · rintro ⟨rfl, -⟩; rfl
    · simp [ht]

/-- The parts of the name of a certificate; the static functions agree and refuse every other name. -/
theorem C104_parts (n i : List Comp) (k s v : Comp) (h : CertNamed n i k s v) :
    identityOf n = i ∧ keyNameOf n = i ++ [⟨8, [75, 69, 89]⟩, k] ∧ keyIdOf n = some k ∧ issuerIdOf n = some s ∧
    extractIdentity n = some i ∧ extractKeyName n = some (i ++ [⟨8, [75, 69, 89]⟩, k]) := by
  have hv := (isValidName_iff n).2 ⟨i, k, s, v, h⟩
  have h1 : identityOf n = i := by
    unfold CertNamed at h
    subst h
    simp [identityOf]
  have h2 : keyNameOf n = i ++ [⟨8, [75, 69, 89]⟩, k] := by
    unfold CertNamed at h
    subst h
    simp only [keyNameOf]
    rw [show i ++ [⟨8, [75, 69, 89]⟩, k, s, v] = (i ++ [⟨8, [75, 69, 89]⟩, k]) ++ [s, v] by simp]
    rw [List.take_append_of_le_length (by simp)]
    exact List.take_of_length_le (by simp)
  refine ⟨h1, h2, ?_, ?_, ?_, ?_⟩
  · unfold CertNamed at h
    subst h
    simp only [keyIdOf]
    rw [List.getElem?_append_right (by simp)]
    simp
  · unfold CertNamed at h
    subst h
    simp only [issuerIdOf]
    rw [List.getElem?_append_right (by simp)]
    simp
  · unfold extractIdentity; rw [if_pos hv, h1]
  · unfold extractKeyName; rw [if_pos hv, h2]

theorem C104_refuse (n : List Comp) (h : ∀ i k s v, ¬ CertNamed n i k s v) :
    extractIdentity n = none ∧ extractKeyName n = none := by
  have hv : ¬ isValidName n = true := fun hv => by
    obtain ⟨i, k, s, v, hc⟩ := (isValidName_iff n).1 hv
    exact h i k s v hc
  exact ⟨by unfold extractIdentity; rw [if_neg hv], by unfold extractKeyName; rw [if_neg hv]⟩

/-- The parts determine the name and are determined by it. -/
theorem C104_unique (n i i' : List Comp) (k k' s s' v v' : Comp) (h : CertNamed n i k s v) (h' : CertNamed n i' k' s' v') :
    i = i' ∧ k = k' ∧ s = s' ∧ v = v' := by
  unfold CertNamed at h h'
  rw [h] at h'
  obtain ⟨h1, h2⟩ := List.append_inj' h' rfl
  simp only [List.cons.injEq, and_true, true_and] at h2
  exact ⟨h1, h2⟩

/-- An extension is the first element of its type in the SignatureInfo. -/
theorem C104_extension (d : DObj) (t : Nat) (r : Raw) :
    extensionOf d t = some r ↔ ∃ pre post, d.f.sigInfo.others = pre ++ r :: post ∧ r.type = t ∧ ∀ e ∈ pre, e.type ≠ t := by
  unfold extensionOf findOther
  rw [List.find?_eq_some_iff_append]
  simp only [decide_eq_true_eq, Bool.not_eq_true', decide_eq_false_iff_not]
  constructor
  · rintro ⟨h1, pre, post, h2, h3⟩; exact ⟨pre, post, h2, h1, h3⟩
  · rintro ⟨pre, post, h2, h1, h3⟩; exact ⟨h1, pre, post, h2, h3⟩

example : ∃ d, certOf ⟨{ sampleData with name := [⟨8, [65]⟩, ⟨8, [75, 69, 89]⟩, ⟨8, [1]⟩, ⟨8, [2]⟩, ⟨8, [3]⟩], minfo := ⟨2, 1, none, []⟩ }, none, []⟩ =
    some d ∧ identityOf d.f.name = [⟨8, [65]⟩] := ⟨_, rfl, rfl⟩

end Ndn.Bag
