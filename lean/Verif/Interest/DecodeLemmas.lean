import Verif.Interest.LoopLemmas
namespace Ndn.Interest
open Tlv Block Block.Spec Name Name.Spec Packet Packet.Spec Spec

theorem grammar_iff {n : Raw} {es : List Raw} {nm : List Comp} {f : IFields} (hn : NameReads n nm)
    (hne : nm ≠ []) (hd : (digests nm).length ≤ 1) :
    iLoop (IFields.cleared nm) 1 es = (true, f) ↔ InterestGrammar (n :: es) f := by
  have key := iLoop_iff es (IFields.cleared nm) f 1 (by decide) (by decide) rfl
  rw [key]
  constructor
  · intro h
    refine ⟨n, es.takeWhile (fun e => e.type ≠ 36), es.dropWhile (fun e => e.type ≠ 36), ?_, ?_, ?_, ?_, ?_, ?_,
      h.known, ?_, h.empty, ?_, ?_, ?_, h.nonce4, ?_, ?_, ?_, h.rest, h.params⟩
    · rw [List.takeWhile_append_dropWhile]
    · rw [h.name]; exact hn
    · rw [h.name]; exact hne
    · rw [h.name]; exact hd
    · intro e he
      have := List.all_takeWhile (l := es) (p := fun e : Raw => decide (e.type ≠ 36))
      rw [List.all_eq_true] at this
      simpa using this e he
    · intro e he
      have := List.head?_dropWhile_not (p := fun e : Raw => decide (e.type ≠ 36)) (l := es)
      rw [show (es.dropWhile fun e => decide (e.type ≠ 36)).head? = some e from he] at this
      simpa using this
    · exact h.ord
    · simpa [IFields.cleared] using h.cbp
    · simpa [IFields.cleared] using h.mbf
    · have := h.hint
      cases hp : pick 30 (es.takeWhile (fun e => e.type ≠ 36)) with
      | none => rw [hp] at this; exact this
      | some e => rw [hp] at this; exact (hintDecode_iff _ _).mp this
    · simpa [IFields.cleared] using h.nonce
    · have := h.life
      cases hp : pick 12 (es.takeWhile (fun e => e.type ≠ 36)) with
      | none => rw [hp] at this; exact this
      | some e => rw [hp] at this; exact readNniValue_iff.mp this
    · have := h.hop
      rw [if_neg (by decide)] at this
      cases hp : pick 34 (es.takeWhile (fun e => e.type ≠ 36)) with
      | none => rw [hp] at this; exact this
      | some e => rw [hp] at this; exact this
  · rintro ⟨n', pre, tail, h0, h1, h2, h3, h4, h5, h6, h7, h8, h9, h10, h11, h12, h13, h14, h15, h16, h17⟩
    simp only [List.cons.injEq] at h0
    obtain ⟨rfl, rfl⟩ := h0
    have t1 : (pre ++ tail).takeWhile (fun e => decide (e.type ≠ 36)) = pre := by
      rw [List.takeWhile_append_of_pos (by intro e he; simpa using h4 e he)]
      cases tail with
      | nil => simp
      | cons p ps => rw [List.takeWhile_cons_of_neg (by simpa using h5 p rfl)]; simp
    have t2 : (pre ++ tail).dropWhile (fun e => decide (e.type ≠ 36)) = tail := by
      rw [List.dropWhile_append_of_pos (by intro e he; simpa using h4 e he)]
      cases tail with
      | nil => simp
      | cons p ps => rw [List.dropWhile_cons_of_neg (by simpa using h5 p rfl)]
    rw [t1, t2]
    have hname : f.name = nm := by
      obtain ⟨_, cs, a1, a2⟩ := h1
      obtain ⟨_, cs', b1, b2⟩ := hn
      have e1 := parseElements_iff.mpr a1
      rw [parseElements_iff.mpr b1] at e1
      simp only [Option.some.injEq] at e1
      rw [a2, b2, e1]
    refine ⟨h6, h7, h8, hname, by simpa [IFields.cleared] using h9, by simpa [IFields.cleared] using h10, ?_, h12,
      by simpa [IFields.cleared] using h13, ?_, ?_, h16, h17⟩
    · cases hp : pick 30 pre with
      | none => rw [hp] at h11; exact h11
      | some e => rw [hp] at h11; exact (hintDecode_iff _ _).mpr h11
    · cases hp : pick 12 pre with
      | none => rw [hp] at h14; exact h14
      | some e => rw [hp] at h14; exact readNniValue_iff.mpr h14
    · rw [if_neg (by decide)]
      cases hp : pick 34 pre with
      | none => rw [hp] at h15; exact h15
      | some e => rw [hp] at h15; exact h15

theorem grammar_name {es : List Raw} {f : IFields} (h : InterestGrammar es f) :
    ∃ n rest, es = n :: rest ∧ NameReads n f.name ∧ f.name ≠ [] ∧ (digests f.name).length ≤ 1 := by
  obtain ⟨n, pre, tail, h0, h1, h2, h3, _⟩ := h
  exact ⟨n, pre ++ tail, h0, h1, h2, h3⟩

theorem nameReads_unique {n : Raw} {a b : List Comp} (h1 : NameReads n a) (h2 : NameReads n b) : a = b := by
  obtain ⟨_, cs, a1, a2⟩ := h1
  obtain ⟨_, cs', b1, b2⟩ := h2
  have e1 := parseElements_iff.mpr a1
  rw [parseElements_iff.mpr b1] at e1
  simp only [Option.some.injEq] at e1
  rw [a2, b2, e1]

/-- Decoding into any object: succeeds exactly on the grammar with a matching digest (if that is
checked), and sets every field. -/
theorem IObj.wireDecode_iff (H : Bytes → Bytes) (auto : Bool) (o o' : IObj) (b : Raw) :
    o.wireDecode H auto b = (true, o') ↔
      b.type = 5 ∧ ∃ es f, ReadsAs b.value es ∧ InterestGrammar es f ∧
        (auto = true → DigestOk H f.name f.params) ∧ o' = ⟨f, some b⟩ := by
  unfold IObj.wireDecode
  by_cases ht : b.type = 5
  · rw [if_neg (by simp [ht])]
    simp only
    cases hp : parseElements b.value with
    | none =>
      simp only
      constructor
      · intro h; simp at h
      · rintro ⟨_, es, f, h, _⟩
        rw [parseElements_iff.mpr h] at hp; simp at hp
    | some es =>
      have hr := parseElements_iff.mp hp
      have uniq : ∀ es', ReadsAs b.value es' → es' = es := by
        intro es' h'
        have := parseElements_iff.mpr h'
        rw [hp] at this; simpa using this.symm
      cases es with
      | nil =>
        simp only
        constructor
        · intro h; simp at h
        · rintro ⟨_, es', f, h, hg, _⟩
          obtain ⟨n, rest, h1, _⟩ := grammar_name hg
          rw [uniq es' h] at h1; simp at h1
      | cons n rest =>
        simp only
        have gname : ∀ es' f, ReadsAs b.value es' → InterestGrammar es' f →
            NameReads n f.name ∧ f.name ≠ [] ∧ (digests f.name).length ≤ 1 := by
          intro es' f h hg
          obtain ⟨n', rest', h1, h2⟩ := grammar_name hg
          rw [uniq es' h] at h1
          simp only [List.cons.injEq] at h1
          rw [← h1.1] at h2; exact h2
        by_cases hn : n.type = 7
        · rw [if_neg (by simp [hn])]
          cases hnm : nameOf n with
          | none =>
            simp only
            constructor
            · intro h; simp at h
            · rintro ⟨_, es', f, h, hg, _⟩
              rw [(nameOf_iff hn).mpr (gname es' f h hg).1] at hnm; simp at hnm
          | some nm =>
            have hnr := (nameOf_iff hn).mp hnm
            simp only
            by_cases he : nm = []
            · rw [if_pos he]
              constructor
              · intro h; simp at h
              · rintro ⟨_, es', f, h, hg, _⟩
                obtain ⟨g1, g2, _⟩ := gname es' f h hg
                rw [nameReads_unique g1 hnr] at g2; exact absurd he g2
            · rw [if_neg he]
              by_cases hd : findDigest nm = -2
              · rw [if_pos hd]
                rw [findDigest_many] at hd
                constructor
                · intro h; simp at h
                · rintro ⟨_, es', f, h, hg, _⟩
                  obtain ⟨g1, _, g2⟩ := gname es' f h hg
                  rw [nameReads_unique g1 hnr] at g2; omega
              · rw [if_neg hd]
                rw [findDigest_many] at hd
                have key := fun f => grammar_iff (es := rest) (f := f) hnr he (by omega)
                generalize hq : iLoop (IFields.cleared nm) 1 rest = q at key
                obtain ⟨q1, q2⟩ := q
                simp only
                constructor
                · intro h
                  by_cases hq1 : q1 = true
                  · rw [if_pos hq1] at h
                    subst hq1
                    have hg := (key q2).mp rfl
                    obtain ⟨g1, _, g2⟩ := gname _ _ hr hg
                    simp only [Prod.mk.injEq, Bool.or_eq_true, Bool.not_eq_eq_eq_not, Bool.not_true] at h
                    refine ⟨ht, _, q2, hr, hg, ?_, h.2.symm⟩
                    intro ha
                    rw [ha] at h
                    rw [← digestValid_iff g2]
                    simpa using h.1
                  · rw [if_neg hq1] at h; simp at h
                · rintro ⟨_, es', f, h, hg, hdig, hd'⟩
                  obtain ⟨_, _, g2⟩ := gname es' f h hg
                  rw [uniq es' h] at hg
                  have a := (key f).mpr hg
                  simp only [Prod.mk.injEq] at a
                  obtain ⟨rfl, rfl⟩ := a
                  simp only [if_true, hd', Prod.mk.injEq, and_true]
                  cases auto with
                  | false => rfl
                  | true => simpa using (digestValid_iff g2).mpr (hdig rfl)
        · rw [if_pos hn]
          constructor
          · intro h; simp at h
          · rintro ⟨_, es', f, h, hg, _⟩
            exact absurd (gname es' f h hg).1.1 hn
  · rw [if_pos ht]
    constructor
    · intro h; simp at h
    · rintro ⟨h, _⟩; exact absurd h ht

theorem interestDecode_iff (H : Bytes → Bytes) (auto : Bool) (b : Raw) (f : IFields) :
    interestDecode H auto b = some f ↔
      b.type = 5 ∧ ∃ es, ReadsAs b.value es ∧ InterestGrammar es f ∧
        (auto = true → DigestOk H f.name f.params) := by
  unfold interestDecode
  constructor
  · intro h
    split at h
    · rename_i o ho
      simp only [Option.some.injEq] at h; subst h
      obtain ⟨h1, es, f, h2, h3, h4, h5⟩ := (IObj.wireDecode_iff _ _ _ _ _).mp ho
      subst h5
      exact ⟨h1, es, h2, h3, h4⟩
    · simp at h
  · rintro ⟨h1, es, h2, h3, h4⟩
    rw [(IObj.wireDecode_iff H auto IObj.init ⟨f, some b⟩ b).mpr ⟨h1, es, f, h2, h3, h4, rfl⟩]

/-! ### What an Interest encodes to -/

/-- The elements before the parameters. -/
def IFields.head (f : IFields) : List Raw :=
  (if f.canBePrefix then [binaryBlock 33 []] else []) ++
  ((if f.mustBeFresh then [binaryBlock 18 []] else []) ++
  ((if f.hint ≠ [] then [binaryBlock 30 ((f.hint.map encodeComps).flatten)] else []) ++
  ((match f.nonce with | some n => [binaryBlock 10 n] | none => []) ++
  ((if f.lifetime ≠ defaultLifetime then [binaryBlock 12 (writeNonNegativeInteger f.lifetime)] else []) ++
   (match f.hopLimit with | some h => [binaryBlock 34 [h]] | none => [])))))

def IFields.elems (f : IFields) : List Raw := nameRaw f.name :: (f.head ++ f.params)

theorem IFields.encode_eq (f : IFields) : f.encode = tlvBytes 5 ((f.elems.map Raw.wire).flatten) := by
  unfold IFields.encode IFields.elems IFields.head
  congr 1
  rw [List.map_cons, List.flatten_cons, nameRaw_wire]
  cases f.canBePrefix <;> cases f.mustBeFresh <;> cases f.nonce <;> cases f.hopLimit <;>
    by_cases h2 : f.lifetime = defaultLifetime <;> by_cases h1 : f.hint = [] <;>
    simp [h1, h2, nniTlv, binaryBlock]

theorem IFields.elems_wf {H : Bytes → Bytes} {f : IFields} (h : InterestWF H f) :
    ∀ e ∈ f.elems, RawWF e := by
  have hs := h.size
  rw [IFields.encode_eq] at hs
  have h2 := tlvBytes_ge 5 ((f.elems.map Raw.wire).flatten)
  have hlen : ∀ e ∈ f.elems, e.wire.length < 2 ^ 64 := by
    intro e he
    have := flatten_mem_le he
    omega
  have hb : ∀ t v, 1 ≤ t → t ≤ 2 ^ 32 - 1 → (binaryBlock t v) ∈ f.elems → RawWF (binaryBlock t v) := by
    intro t v h1 h3 hm
    have h5 := hlen _ hm
    have : (binaryBlock t v).wire = tlvBytes t v := rfl
    rw [this] at h5
    have := tlvBytes_ge t v
    exact binaryBlock_wf h1 h3 (by omega)
  intro e he
  have he' := he
  unfold IFields.elems at he
  rcases List.mem_cons.mp he with rfl | he
  · exact hb 7 _ (by decide) (by decide) he'
  · rcases List.mem_append.mp he with he | he
    · unfold IFields.head at he
      simp only [List.mem_append] at he
      rcases he with he | he | he | he | he | he
      · split at he
        · simp at he; subst he; exact hb _ _ (by decide) (by decide) he'
        · simp at he
      · split at he
        · simp at he; subst he; exact hb _ _ (by decide) (by decide) he'
        · simp at he
      · split at he
        · simp at he; subst he; exact hb _ _ (by decide) (by decide) he'
        · simp at he
      · split at he
        · simp at he; subst he; exact hb _ _ (by decide) (by decide) he'
        · simp at he
      · split at he
        · simp at he; subst he; exact hb _ _ (by decide) (by decide) he'
        · simp at he
      · split at he
        · simp at he; subst he; exact hb _ _ (by decide) (by decide) he'
        · simp at he
    · exact (h.params e he).1

theorem hint_reads {ns : List (List Comp)} (hw : ∀ n ∈ ns, NameWF n)
    (hs : ((ns.map encodeComps).flatten).length < 2 ^ 64) :
    HintReads (binaryBlock 30 ((ns.map encodeComps).flatten)) ns := by
  have hle : ∀ n ∈ ns, (encodeComps n).length < 2 ^ 64 := by
    intro n hn
    have : (encodeComps n).length ≤ ((ns.map encodeComps).flatten).length := by
      clear hs hw
      induction ns with
      | nil => simp at hn
      | cons m ms ih =>
        simp only [List.map_cons, List.flatten_cons, List.length_append]
        rcases List.mem_cons.mp hn with rfl | hn
        · omega
        · have := ih hn; omega
    omega
  refine ⟨ns.map nameRaw, ?_, ?_, ?_⟩
  · have : (ns.map encodeComps).flatten = ((ns.map nameRaw).map Raw.wire).flatten := by
      rw [List.map_map]
      congr 1
      apply List.map_congr_left
      intro n _
      exact (nameRaw_wire n).symm
    have hv : (binaryBlock 30 ((ns.map encodeComps).flatten)).value = (ns.map encodeComps).flatten := rfl
    rw [hv, this]
    refine readsAs_of ?_
    intro e he
    obtain ⟨n, hn, rfl⟩ := List.mem_map.mp he
    exact nameRaw_wf (hle n hn)
  · intro d hd
    obtain ⟨n, _, rfl⟩ := List.mem_map.mp hd
    exact Or.inl rfl
  · have : (ns.map nameRaw).filter (fun d => decide (d.type = 7 ∨ d.type = 31)) = ns.map nameRaw := by
      rw [List.filter_eq_self]
      intro d hd
      obtain ⟨n, _, rfl⟩ := List.mem_map.mp hd
      rfl
    rw [this]
    clear this hs
    induction ns with
    | nil => exact .nil
    | cons n ns ih =>
      refine .cons (Or.inl ?_) (ih (fun m hm => hw m (by simp [hm])) (fun m hm => hle m (by simp [hm])))
      rw [← nameOf_iff rfl]
      exact nameOf_nameRaw (hw n (by simp)) (hle n (by simp))

theorem digestOk_le {H : Bytes → Bytes} {n : List Comp} {ps : List Raw} (h : DigestOk H n ps) :
    (digests n).length ≤ 1 := by
  rcases h with ⟨_, h⟩ | ⟨_, h⟩ <;> rw [h] <;> simp

theorem pick_append (t : Nat) (a b : List Raw) : pick t (a ++ b) = (pick t a).or (pick t b) := by
  simp [pick, List.find?_append]

theorem pick_eq_none {t : Nat} {a : List Raw} (h : ∀ e ∈ a, e.type ≠ t) : pick t a = none := by
  unfold pick; rw [List.find?_eq_none]; intro e he; simpa using h e he

theorem IFields.grammar_elems {H : Bytes → Bytes} {f : IFields} (h : InterestWF H f) :
    InterestGrammar f.elems f := by
  have hs := h.size
  rw [IFields.encode_eq] at hs
  have h2 := tlvBytes_ge 5 ((f.elems.map Raw.wire).flatten)
  have hname : (encodeComps f.name).length < 2 ^ 64 := by
    have := flatten_mem_le (l := f.elems) (e := nameRaw f.name) (by simp [IFields.elems])
    rw [nameRaw_wire] at this; omega
  have hhint : f.hint ≠ [] → ((f.hint.map encodeComps).flatten).length < 2 ^ 64 := by
    intro hne
    have hm : binaryBlock 30 ((f.hint.map encodeComps).flatten) ∈ f.elems := by
      simp [IFields.elems, IFields.head, hne]
    have := flatten_mem_le hm
    have := tlvBytes_ge 30 ((f.hint.map encodeComps).flatten)
    have : (binaryBlock 30 ((f.hint.map encodeComps).flatten)).wire.length =
      (tlvBytes 30 ((f.hint.map encodeComps).flatten)).length := rfl
    omega
  obtain ⟨nn, hn1, hn2⟩ := h.nonce
  have hk : ∀ e ∈ f.head, Known e := by
    intro e he
    unfold IFields.head at he
    simp only [List.mem_append] at he
    unfold Known
    rcases he with he | he | he | he | he | he
    all_goals
      split at he
      · simp at he; subst he; simp [binaryBlock]
      · simp at he
  have hfilter : f.head.filter (fun e => Known e) = f.head := by
    rw [List.filter_eq_self]; intro e he; simpa using hk e he
  have p33 : pick 33 f.head = if f.canBePrefix then some (binaryBlock 33 []) else none := by
    unfold IFields.head
    cases f.canBePrefix <;> cases f.mustBeFresh <;> cases f.nonce <;> cases f.hopLimit <;>
      by_cases g2 : f.lifetime = defaultLifetime <;> by_cases g1 : f.hint = [] <;>
      simp [g1, g2, pick, binaryBlock]
  have p18 : pick 18 f.head = if f.mustBeFresh then some (binaryBlock 18 []) else none := by
    unfold IFields.head
    cases f.canBePrefix <;> cases f.mustBeFresh <;> cases f.nonce <;> cases f.hopLimit <;>
      by_cases g2 : f.lifetime = defaultLifetime <;> by_cases g1 : f.hint = [] <;>
      simp [g1, g2, pick, binaryBlock]
  have p30 : pick 30 f.head = if f.hint ≠ [] then some (binaryBlock 30 ((f.hint.map encodeComps).flatten)) else none := by
    unfold IFields.head
    cases f.canBePrefix <;> cases f.mustBeFresh <;> cases f.nonce <;> cases f.hopLimit <;>
      by_cases g2 : f.lifetime = defaultLifetime <;> by_cases g1 : f.hint = [] <;>
      simp [g1, g2, pick, binaryBlock]
  have p10 : pick 10 f.head = some (binaryBlock 10 nn) := by
    unfold IFields.head
    rw [hn1]
    cases f.canBePrefix <;> cases f.mustBeFresh <;> cases f.hopLimit <;>
      by_cases g2 : f.lifetime = defaultLifetime <;> by_cases g1 : f.hint = [] <;>
      simp [g1, g2, pick, binaryBlock]
  have p12 : pick 12 f.head = if f.lifetime ≠ defaultLifetime then
      some (binaryBlock 12 (writeNonNegativeInteger f.lifetime)) else none := by
    unfold IFields.head
    cases f.canBePrefix <;> cases f.mustBeFresh <;> cases f.nonce <;> cases f.hopLimit <;>
      by_cases g2 : f.lifetime = defaultLifetime <;> by_cases g1 : f.hint = [] <;>
      simp [g1, g2, pick, binaryBlock]
  have p34 : pick 34 f.head = f.hopLimit.map (fun x => binaryBlock 34 [x]) := by
    unfold IFields.head
    cases f.canBePrefix <;> cases f.mustBeFresh <;> cases f.nonce <;> cases f.hopLimit <;>
      by_cases g2 : f.lifetime = defaultLifetime <;> by_cases g1 : f.hint = [] <;>
      simp [g1, g2, pick, binaryBlock]
  refine ⟨nameRaw f.name, f.head, f.params, rfl, ?_, h.nonempty, digestOk_le h.digest, ?_, h.params0,
    fun e he => Or.inl (hk e he), ?_, ?_, ?_, ?_, ?_, ?_, ?_, ?_, ?_, fun e he => (h.params e he).2, ?_⟩
  · rw [← nameOf_iff rfl]; exact nameOf_nameRaw h.name hname
  · intro e he; have := hk e he; unfold Known at this; omega
  · rw [hfilter]
    unfold IFields.head
    refine ⟨(if f.canBePrefix then [33] else []) ++ (if f.mustBeFresh then [18] else []) ++
      (if f.hint ≠ [] then [30] else []) ++ [10] ++ (if f.lifetime ≠ defaultLifetime then [12] else []),
      (if f.hopLimit.isSome then 1 else 0), ?_, ?_⟩
    · rw [hn1]
      cases f.canBePrefix <;> cases f.mustBeFresh <;> cases f.hopLimit <;>
        by_cases g2 : f.lifetime = defaultLifetime <;> by_cases g1 : f.hint = [] <;>
        simp [g1, g2, binaryBlock]
    · cases f.canBePrefix <;> cases f.mustBeFresh <;>
        by_cases g2 : f.lifetime = defaultLifetime <;> by_cases g1 : f.hint = [] <;>
        simp only [g1, g2, ne_eq, not_true_eq_false, not_false_eq_true, if_true, if_false, Bool.false_eq_true] <;> decide
  · intro e he ht
    unfold IFields.head at he
    simp only [List.mem_append] at he
    rcases he with he | he | he | he | he | he
    · split at he <;> simp at he; subst he; rfl
    · split at he <;> simp at he; subst he; rfl
    all_goals
      split at he
      · simp at he; subst he; simp [binaryBlock] at ht
      · simp at he
  · rw [p33]; cases f.canBePrefix <;> rfl
  · rw [p18]; cases f.mustBeFresh <;> rfl
  · rw [p30]
    by_cases g1 : f.hint = []
    · rw [if_neg (by simp [g1])]; exact g1
    · rw [if_pos g1]; exact hint_reads h.hint (hhint g1)
  · rw [p10]; intro e he; simp at he; subst he; exact hn2
  · rw [p10]; exact hn1
  · rw [p12]
    by_cases g1 : f.lifetime = defaultLifetime
    · rw [if_neg (by simp [g1])]; exact g1
    · rw [if_pos g1]; exact writeNonNegativeInteger_form h.lifetime
  · rw [p34]
    cases f.hopLimit with
    | none => rfl
    | some x => exact ⟨x, rfl, rfl⟩
  · cases hp : f.params with
    | nil => rfl
    | cons p ps =>
      simp only [List.take_succ_cons, List.take_zero, List.drop_succ_cons, List.drop_zero, List.singleton_append,
        List.cons.injEq, true_and]
      symm
      rw [List.filter_eq_self]
      intro e he
      have := h.params1 e (by rw [hp]; exact he)
      simp [this.1, this.2]

end Ndn.Interest
