import Verif.Object.LinkSpec
import Verif.Packet.Props
import Verif.Tlv.Props

/-! # C69: Link delegations -/

namespace Ndn.Object
open Ndn.Tlv Ndn.Block Ndn.Block.Spec Ndn.Name Ndn.Packet Ndn.Packet.Spec Ndn.Object.Spec

theorem nameOf_is (e : Raw) (n : List Comp) : nameOf e = some n ↔ NameIs e n := by
  unfold nameOf NameIs
  by_cases h : e.type = 7
  · rw [if_neg (by simp [h])]
    constructor
    · intro hn
      cases hp : parseElements e.value with
      | none => rw [hp] at hn; cases hn
      | some es =>
        rw [hp] at hn
        refine ⟨h, es, parseElements_iff.1 hp, ?_⟩
        simp only [Option.map_some, Option.some.injEq] at hn
        rw [← hn]; rfl
    · rintro ⟨-, cs, hr, rfl⟩
      rw [parseElements_iff.2 hr]; rfl
  · rw [if_pos (by simpa using h)]
    constructor
    · intro hn; cases hn
    · rintro ⟨ht, -⟩; exact absurd ht h

theorem delLoop_iff (es : List Raw) (acc ds : List (List Comp)) :
    delLoop acc es = (true, ds) ↔ ∃ rest, ds = acc ++ rest ∧ LinkContent es rest := by
  induction es generalizing acc ds with
  | nil =>
    simp only [delLoop, LinkContent, Prod.mk.injEq, true_and]
    constructor
    · rintro rfl; exact ⟨[], by simp, rfl⟩
    · rintro ⟨rest, rfl, rfl⟩; simp
  | cons e es ih =>
    simp only [delLoop, LinkContent]
    by_cases h : e.type = 7
    · rw [if_pos h]
      cases hn : nameOf e with
      | none =>
        constructor
        · intro hh; cases hh
        · rintro ⟨rest, -, ⟨n, rest', hx, -, -⟩ | ⟨hx, -, -⟩⟩
          · rw [(nameOf_is e n).2 hx] at hn; cases hn
          · exact absurd h hx
      | some n =>
        dsimp only
        rw [ih]
        constructor
        · rintro ⟨rest, rfl, hc⟩
          exact ⟨n :: rest, by simp, Or.inl ⟨n, rest, (nameOf_is e n).1 hn, rfl, hc⟩⟩
        · rintro ⟨rest, rfl, ⟨n', rest', hx, rfl, hc⟩ | ⟨hx, -, -⟩⟩
          · rw [(nameOf_is e n').2 hx] at hn
            injection hn with hn; subst hn
            exact ⟨rest', by simp, hc⟩
          · exact absurd h hx
    · rw [if_neg h]
      by_cases hc : isCriticalType e.type = true
      · rw [if_pos hc]
        constructor
        · intro hh; cases hh
        · rintro ⟨rest, -, ⟨n, rest', hx, -, -⟩ | ⟨-, hx, -⟩⟩
          · exact absurd hx.1 h
          · exact absurd hx ((isCritical_iff _).1 hc)
      · rw [if_neg hc, ih]
        have hi : Ignorable e := by
          unfold Ignorable
          by_cases hh : e.type > 31 ∧ e.type % 2 = 0
          · exact hh
          · exact absurd ((isCritical_iff _).2 hh) hc
        constructor
        · rintro ⟨rest, rfl, hk⟩; exact ⟨rest, rfl, Or.inr ⟨h, hi, hk⟩⟩
        · rintro ⟨rest, rfl, ⟨n, rest', hx, -, -⟩ | ⟨-, -, hk⟩⟩
          · exact absurd hx.1 h
          · exact ⟨rest, rfl, hk⟩

/-- Reading the content of a Data packet as a Link. -/
theorem content_iff (f : DFields) (ds : List (List Comp)) :
    (∃ es, parseElements (contentValue f) = some es ∧ delLoop [] es = (true, ds)) ↔
      ∃ es, LinkContent es ds ∧ match f.content with | none => es = [] | some c => ReadsAs c.value es := by
  have hd : ∀ es, delLoop [] es = (true, ds) ↔ LinkContent es ds := by
    intro es
    rw [delLoop_iff]
    constructor
    · rintro ⟨rest, rfl, h⟩; simpa using h
    · intro h; exact ⟨ds, rfl, h⟩
  unfold contentValue
  cases f.content with
  | none =>
    constructor
    · rintro ⟨es, h1, h2⟩
      have : es = [] := by
        have : parseElements [] = some [] := rfl
        rw [this] at h1; injection h1 with h1; exact h1.symm
      exact ⟨es, (hd es).1 h2, this⟩
    · rintro ⟨es, h1, rfl⟩
      exact ⟨[], rfl, (hd []).2 h1⟩
  | some c =>
    constructor
    · rintro ⟨es, h1, h2⟩; exact ⟨es, (hd es).1 h2, parseElements_iff.1 h1⟩
    · rintro ⟨es, h1, h2⟩; exact ⟨es, parseElements_iff.2 h2, (hd es).2 h1⟩

theorem wireDecode_link_iff (l l' : Link) (b : Raw) :
    l.wireDecode b = (true, l') ↔
      ∃ d', l.d.wireDecode b = (true, d') ∧ l'.d = d' ∧ IsLink d'.f l'.dels := by
  unfold Link.wireDecode IsLink
  cases hr : l.d.wireDecode b with
  | mk ok d' =>
    dsimp only
    cases ok with
    | false =>
      constructor
      · intro h; cases h
      · rintro ⟨d'', h, -⟩; cases h
    | true =>
      simp only [if_true]
      by_cases ht : d'.f.minfo.type = 1
      · rw [if_neg (by simp [ht])]
        cases hp : parseElements (contentValue d'.f) with
        | none =>
          constructor
          · intro h; cases h
          · rintro ⟨d'', h, h1, h2, h3⟩
            injection h with _ h; subst h
            obtain ⟨es, h4, -⟩ := (content_iff d'.f l'.dels).2 h3
            rw [hp] at h4; cases h4
        | some es =>
          dsimp only
          constructor
          · intro h
            injection h with h1 h2
            subst h2
            exact ⟨d', rfl, rfl, ht, (content_iff d'.f _).1 ⟨es, hp, by rw [← h1]⟩⟩
          · rintro ⟨d'', h, h1, -, h3⟩
            injection h with _ h; subst h
            obtain ⟨es', h4, h5⟩ := (content_iff d'.f l'.dels).2 h3
            rw [hp] at h4; injection h4 with h4; subst h4
            rw [h5]
            cases l'; cases h1; rfl
      · rw [if_pos (by simpa using ht)]
        constructor
        · intro h; cases h
        · rintro ⟨d'', h, -, h2, -⟩
          injection h with _ h; subst h
          exact absurd h2 ht

/-- **C69**, decoding: a packet is accepted as a Link with the delegations `ds` exactly when it is
a Data packet of content type Link whose content consists of these names in this order, and
possibly unrecognised elements that are not critical. -/
theorem C69_decode_exact (b : Raw) (ds : List (List Comp)) :
    linkDecode b = some ds ↔ ∃ f, dataDecode b = some f ∧ IsLink f ds := by
  unfold linkDecode
  constructor
  · intro h
    cases hw : Link.empty.wireDecode b with
    | mk ok l =>
      rw [hw] at h
      cases ok with
      | false => cases h
      | true =>
        injection h with h; subst h
        obtain ⟨d', h1, h2, h3⟩ := (wireDecode_link_iff _ _ _).1 hw
        exact ⟨d'.f, (DObj.wireDecode_fields h1).1, h3⟩
  · rintro ⟨f, h1, h2⟩
    have h0 : (DObj.init []).wireDecode b = (true, ⟨f, some b.wire, []⟩) := by
      obtain ⟨q1, es, q2, q3⟩ := (dataDecode_iff b f).1 h1
      exact (DObj.wireDecode_iff _ _ _).2 ⟨q1, es, f, q2, q3, rfl⟩
    rw [(wireDecode_link_iff Link.empty ⟨⟨f, some b.wire, []⟩, ds⟩ b).2 ⟨_, h0, rfl, h2⟩]

/-! ### Editing -/

theorem mem_dropAll (n x : List Comp) (l : List (List Comp)) : x ∈ dropAll n l ↔ x ∈ l ∧ x ≠ n := by
  induction l with
  | nil => simp [dropAll]
  | cons y ys ih =>
    unfold dropAll
    by_cases h : y = n
    · rw [if_pos h, ih]
      constructor
      · rintro ⟨h1, h2⟩; exact ⟨List.mem_cons_of_mem _ h1, h2⟩
      · rintro ⟨h1, h2⟩
        rcases List.mem_cons.1 h1 with rfl | h1
        · exact absurd h h2
        · exact ⟨h1, h2⟩
    · rw [if_neg h]
      simp only [List.mem_cons, ih]
      constructor
      · rintro (rfl | ⟨h1, h2⟩)
        · exact ⟨Or.inl rfl, h⟩
        · exact ⟨Or.inr h1, h2⟩
      · rintro ⟨rfl | h1, h2⟩
        · exact Or.inl rfl
        · exact Or.inr ⟨h1, h2⟩

theorem dropAll_length (n : List Comp) (l : List (List Comp)) :
    (dropAll n l).length ≤ l.length ∧ ((dropAll n l).length = l.length ↔ n ∉ l) := by
  induction l with
  | nil => simp [dropAll]
  | cons y ys ih =>
    unfold dropAll
    by_cases h : y = n
    · rw [if_pos h]
      refine ⟨by simp; omega, ?_⟩
      constructor
      · intro hl; simp at hl; omega
      · intro hm; exact absurd (by rw [h]; exact List.mem_cons_self ..) hm
    · rw [if_neg h]
      refine ⟨by simp; omega, ?_⟩
      simp only [List.length_cons, Nat.add_right_cancel_iff, ih.2, List.mem_cons, not_or]
      exact ⟨fun hm => ⟨fun e => h e.symm, hm⟩, fun hm => hm.2⟩

theorem dropAll_filter (n : List Comp) (l : List (List Comp)) : dropAll n l = l.filter (· ≠ n) := by
  induction l with
  | nil => rfl
  | cons y ys ih =>
    unfold dropAll
    by_cases h : y = n
    · rw [if_pos h, ih]; simp [h]
    · rw [if_neg h, ih]; simp [h]

theorem encodeContent_dels (H : Bytes → Bytes) (l : Link) : (l.encodeContent H).dels = l.dels := rfl

/-- **C69**: `addDelegation` reports whether the name was new; then it is put at the end, otherwise
nothing changes. -/
theorem C69_add (H : Bytes → Bytes) (l : Link) (n : List Comp) :
    ((l.step H (.add n)).1 = true ↔ n ∉ l.dels) ∧
    (n ∉ l.dels → (l.step H (.add n)).2.dels = l.dels ++ [n]) ∧
    (n ∈ l.dels → (l.step H (.add n)).2 = l) := by
  simp only [Link.step]
  by_cases h : n ∈ l.dels
  · rw [if_pos (by simpa using h)]
    exact ⟨by simp [h], fun h' => absurd h h', fun _ => rfl⟩
  · rw [if_neg (by simpa using h)]
    exact ⟨by simp [h], fun _ => rfl, fun h' => absurd h' h⟩

/-- **C69**: `removeDelegation` reports whether the name was there; all its occurrences are removed
and all other delegations keep their order. -/
theorem C69_remove (H : Bytes → Bytes) (l : Link) (n : List Comp) :
    ((l.step H (.remove n)).1 = true ↔ n ∈ l.dels) ∧
    (l.step H (.remove n)).2.dels = l.dels.filter (· ≠ n) ∧
    (n ∉ l.dels → (l.step H (.remove n)).2 = l) := by
  simp only [Link.step]
  by_cases h : (dropAll n l.dels).length = l.dels.length
  · have hn := (dropAll_length n l.dels).2.1 h
    rw [if_pos h]
    refine ⟨by simp [hn], ?_, fun _ => rfl⟩
    rw [List.filter_eq_self.2]
    intro x hx
    simp only [decide_eq_true_eq]
    rintro rfl
    exact hn hx
  · have hn : n ∈ l.dels := Decidable.byContradiction fun hn => h ((dropAll_length n l.dels).2.2 hn)
    rw [if_neg h]
    exact ⟨by simp [hn], dropAll_filter n l.dels, fun h' => absurd hn h'⟩

/-- **C69**: as long as no list with duplicates is given to the constructor or to
`setDelegationList`, and no packet with duplicates is decoded, there are no duplicates. -/
theorem C69_nodup (H : Bytes → Bytes) (l : Link) (ops : List LOp) (h0 : l.dels.Nodup)
    (hs : ∀ ds, LOp.set ds ∈ ops → ds.Nodup) (hd : ∀ b, LOp.decode b ∉ ops) :
    (ops.foldl (fun l op => (l.step H op).2) l).dels.Nodup := by
  induction ops generalizing l with
  | nil => exact h0
  | cons op ops ih =>
    rw [List.foldl_cons]
    refine ih _ ?_ (fun ds h => hs ds (List.mem_cons_of_mem _ h)) (fun b h => hd b (List.mem_cons_of_mem _ h))
    cases op with
    | set ds => exact hs ds (List.mem_cons_self ..)
    | add n =>
      by_cases h : n ∈ l.dels
      · rw [(C69_add H l n).2.2 h]; exact h0
      · rw [(C69_add H l n).2.1 h, List.nodup_append]
        refine ⟨h0, by simp, ?_⟩
        intro a ha b hb
        simp only [List.mem_singleton] at hb; subst hb
        rintro rfl
        exact h ha
    | remove n => rw [(C69_remove H l n).2.1]; exact h0.filter _
    | decode b => exact absurd (List.mem_cons_self ..) (hd b)
    | data op => exact h0

/-! ### The packet carries the list -/

theorem linkContent_is {ds : List (List Comp)} (h : DelsWF ds) :
    ReadsAs (linkContent ds).value (ds.map nameRaw) ∧ LinkContent (ds.map nameRaw) ds := by
  have hlen : ∀ n ∈ ds, (encodeComps n).length < 2 ^ 64 := by
    intro n hn
    have : (encodeComps n).length ≤ ((ds.map encodeComps).flatten).length := by
      have := h.2
      clear h this
      induction ds with
      | nil => cases hn
      | cons x xs ih =>
        simp only [List.map_cons, List.flatten_cons, List.length_append]
        rcases List.mem_cons.1 hn with rfl | hn
        · omega
        · have := ih hn; omega
    have := h.2
    omega
  constructor
  · have e : (linkContent ds).value = ((ds.map nameRaw).map Raw.wire).flatten := by
      simp only [linkContent, binaryBlock, List.map_map]
      congr 1
      apply List.map_congr_left
      intro n hn
      exact (nameRaw_wire n).symm
    rw [e]
    refine readsAs_of ?_
    intro r hr
    obtain ⟨n, hn, rfl⟩ := List.mem_map.1 hr
    exact nameRaw_wf (hlen n hn)
  · have hw := h.1
    clear h
    induction ds with
    | nil => rfl
    | cons n ns ih =>
      refine Or.inl ⟨n, ns, (nameOf_is _ _).1 (nameOf_nameRaw (hw n (List.mem_cons_self ..))
        (hlen n (List.mem_cons_self ..))), rfl, ?_⟩
      exact ih (fun n hn => hlen n (List.mem_cons_of_mem _ hn)) (fun n hn => hw n (List.mem_cons_of_mem _ hn))

theorem encodeContent_fields (H : Bytes → Bytes) (l : Link) :
    (l.encodeContent H).d.f.content = some (linkContent l.dels) ∧
    (l.encodeContent H).d.f.minfo.type = 1 ∧ (l.encodeContent H).d.wire = none := by
  unfold Link.encodeContent
  simp only [DObj.step]
  by_cases h : 1 ≠ l.d.f.minfo.type
  · rw [if_pos h]; exact ⟨rfl, rfl, rfl⟩
  · rw [if_neg h]; exact ⟨rfl, (Decidable.byContradiction fun hh => h (fun e => hh e.symm)), rfl⟩

theorem encodeContent_isLink (H : Bytes → Bytes) (l : Link) (h : DelsWF l.dels) :
    IsLink (l.encodeContent H).d.f (l.encodeContent H).dels := by
  obtain ⟨h1, h2, -⟩ := encodeContent_fields H l
  obtain ⟨q1, q2⟩ := linkContent_is h
  refine ⟨h2, _, q2, ?_⟩
  rw [h1]; exact q1

/-- The calls of a history: well-formed lists of names; calls of the base class that leave content
and content type alone; decoding that succeeds; encoding of a complete packet. -/
def Spec.Proper (H : Bytes → Bytes) (l : Link) : LOp → Prop
  | .set ds => DelsWF ds
  | .add n => DelsWF (l.dels ++ [n])
  | .remove _ => True
  | .decode b => RawWF b ∧ (l.wireDecode b).1 = true
  | .data op => neutral op = true ∧ (op = .wireEncode → DataWF l.d.f)

/-- Links made by the constructors that take a name or a packet, and proper calls. -/
inductive Spec.LReach (H : Bytes → Bytes) : Link → Prop
  | make (name : List Comp) (ds : List (List Comp)) (h : DelsWF ds) : LReach H (Link.make H name ds)
  | ofWire (b : Raw) (h : RawWF b) (hk : (Link.empty.wireDecode b).1 = true) :
      LReach H (Link.empty.wireDecode b).2
  | step {l : Link} {op : LOp} : LReach H l → Proper H l op → LReach H (l.step H op).2

theorem Spec.DelsWF.sub {ds ds' : List (List Comp)} (h : DelsWF ds) (hs : ds'.Sublist ds) : DelsWF ds' := by
  refine ⟨fun n hn => h.1 n (hs.subset hn), ?_⟩
  have : ∀ {ds ds' : List (List Comp)}, ds'.Sublist ds →
      ((ds'.map encodeComps).flatten).length ≤ ((ds.map encodeComps).flatten).length := by
    intro ds ds' h
    induction h with
    | slnil => simp
    | cons a h ih => simp only [List.map_cons, List.flatten_cons, List.length_append]; omega
    | cons_cons a h ih => simp only [List.map_cons, List.flatten_cons, List.length_append]; omega
  have := this hs
  have := h.2
  omega

/-- What the object's parts have to do with each other. -/
structure LInv (H : Bytes → Bytes) (l : Link) : Prop where
  data : DInv H l.d
  link : IsLink l.d.f l.dels

theorem link_decoded {H : Bytes → Bytes} {l l' : Link} {b : Raw} (hb : RawWF b) (h : l.wireDecode b = (true, l')) :
    LInv H l' := by
  obtain ⟨d', h1, rfl, h3⟩ := (wireDecode_link_iff _ _ _).1 h
  obtain ⟨a1, a2, a3⟩ := DObj.wireDecode_fields h1
  refine ⟨⟨?_, ?_⟩, h3⟩
  · intro w hw
    rw [a2] at hw; injection hw with hw
    exact ⟨b, hw, hb, a1⟩
  · intro hf; exact absurd a3 hf

theorem encodeContent_linv (H : Bytes → Bytes) (l : Link) (h : IsLink (l.encodeContent H).d.f (l.encodeContent H).dels) :
    LInv H (l.encodeContent H) :=
  ⟨DInv.reset _, h⟩

/-- A Link's delegations can be encoded again, if there was a way to encode them before. -/
theorem neutral_keeps {H : Bytes → Bytes} {d : DObj} {op : DOp} (hi : DInv H d) (hn : neutral op = true)
    (hw : op = .wireEncode → DataWF d.f) :
    DInv H (d.step H op).2 ∧ (d.step H op).2.f.content = d.f.content ∧
      (d.step H op).2.f.minfo.type = d.f.minfo.type := by
  cases op with
  | setName n =>
    simp only [DObj.step]
    by_cases h : n ≠ d.f.name
    · rw [if_pos h]; exact ⟨DInv.reset _, rfl, rfl⟩
    · rw [if_neg h]; exact ⟨hi, rfl, rfl⟩
  | setSignatureInfo s => exact ⟨DInv.reset _, rfl, rfl⟩
  | setSignatureValue v => exact ⟨DInv.reset _, rfl, rfl⟩
  | setFreshness ms =>
    simp only [DObj.step]
    by_cases h : ms ≠ d.f.minfo.getFreshness
    · rw [if_pos h]
      by_cases h' : ms < 0
      · rw [if_pos h']; exact ⟨hi, rfl, rfl⟩
      · rw [if_neg h']; exact ⟨DInv.reset _, rfl, rfl⟩
    · rw [if_neg h]; exact ⟨hi, rfl, rfl⟩
  | setFinalBlock c =>
    simp only [DObj.step]
    by_cases h : c ≠ d.f.minfo.finalBlock
    · rw [if_pos h]; exact ⟨DInv.reset _, rfl, rfl⟩
    · rw [if_neg h]; exact ⟨hi, rfl, rfl⟩
  | getFullName =>
    obtain ⟨h1, h2, -⟩ := hi.getFullName
    refine ⟨h1, ?_, ?_⟩
    · show (d.getFullName H).1.f.content = _; rw [h2]
    · show (d.getFullName H).1.f.minfo.type = _; rw [h2]
  | wireEncode =>
    have hwf := hw rfl
    cases hwire : d.wire with
    | some w =>
      have : d.wireEncode = (d, some w) := by unfold DObj.wireEncode; rw [hwire]
      simp only [DObj.step, this]
      exact ⟨hi, trivial, trivial⟩
    | none =>
      obtain ⟨w, -, he⟩ := C24_encode_keeps_fields d hwire hwf
      have hk := (hi.wireEncode (Or.inl (by rw [he]; rfl))).1
      simp only [DObj.step]
      refine ⟨hk, ?_, ?_⟩ <;> rw [he]
  | _ => cases hn


/-! ### Names read from a packet can be encoded again -/

theorem sizeOfVarNumber_mono {a b : Nat} (h : a ≤ b) : sizeOfVarNumber a ≤ sizeOfVarNumber b := by
  unfold sizeOfVarNumber
  (repeat' split) <;> omega

theorem tlv_le {w v v' : Bytes} {t : Nat} (h : TlvForm w t v) (hl : v'.length ≤ v.length) :
    (tlvBytes t v').length ≤ w.length := by
  obtain ⟨a, b, rfl, h1, -, -, h2⟩ := h
  have e1 := (C01_write t h1.lt).2.2 a h1
  have e2 := (C01_write v.length h2.lt).2.2 b h2
  have e3 := sizeOfVarNumber_mono hl
  rw [tlvBytes_length, writeVarNumber_length, writeVarNumber_length]
  simp only [List.length_append]
  omega

theorem name_le {e : Raw} {n : List Comp} (hw : RawWF e) (h : NameIs e n) :
    NameWF n ∧ (encodeComps n).length ≤ e.wire.length := by
  obtain ⟨ht, cs, ⟨hv, hcs⟩, rfl⟩ := h
  constructor
  · intro c hc
    obtain ⟨r, hr, rfl⟩ := List.mem_map.1 hc
    obtain ⟨-, -, -, -, h1, h2, -⟩ := hcs r hr
    exact ⟨h1, h2⟩
  · rw [encodeComps_eq]
    have hw' : TlvForm e.wire 7 e.value := ht ▸ hw
    refine tlv_le hw' ?_
    rw [hv]
    clear hv hw hw' ht
    induction cs with
    | nil => simp [nameElems]
    | cons c cs ih =>
      have i1 := ih (fun r hr => hcs r (List.mem_cons_of_mem _ hr))
      have i2 := tlv_le (hcs c (List.mem_cons_self ..)) (Nat.le_refl _)
      simp only [nameElems, List.map_cons, List.flatten_cons, List.length_append] at i1 ⊢
      have : (Comp.encode ⟨c.type, c.value⟩).length = (tlvBytes c.type c.value).length := rfl
      omega

theorem linkContent_le {es : List Raw} {ds : List (List Comp)} (hw : ∀ e ∈ es, RawWF e) (h : LinkContent es ds) :
    (∀ n ∈ ds, NameWF n) ∧ ((ds.map encodeComps).flatten).length ≤ ((es.map Raw.wire).flatten).length := by
  induction es generalizing ds with
  | nil => cases h; simp
  | cons e es ih =>
    have hw' := fun e he => hw e (List.mem_cons_of_mem _ he)
    rcases h with ⟨n, rest, h1, rfl, h2⟩ | ⟨-, -, h2⟩
    · obtain ⟨i1, i2⟩ := ih hw' h2
      obtain ⟨j1, j2⟩ := name_le (hw e (List.mem_cons_self ..)) h1
      refine ⟨?_, ?_⟩
      · intro m hm
        rcases List.mem_cons.1 hm with rfl | hm
        · exact j1
        · exact i1 m hm
      · simp only [List.map_cons, List.flatten_cons, List.length_append]; omega
    · obtain ⟨i1, i2⟩ := ih hw' h2
      refine ⟨i1, ?_⟩
      simp only [List.map_cons, List.flatten_cons, List.length_append]; omega

theorem isLink_wf {f : DFields} {ds : List (List Comp)} (h : IsLink f ds)
    (hc : ∀ c, f.content = some c → c.value.length < 2 ^ 64) : DelsWF ds := by
  obtain ⟨-, es, h1, h2⟩ := h
  cases hf : f.content with
  | none =>
    rw [hf] at h2
    dsimp only at h2
    subst h2
    cases h1
    exact ⟨by simp, by simp⟩
  | some c =>
    rw [hf] at h2
    obtain ⟨h3, h4⟩ := h2
    obtain ⟨i1, i2⟩ := linkContent_le h4 h1
    refine ⟨i1, ?_⟩
    have := hc c hf
    rw [h3] at this
    omega

theorem decoded_content {b : Raw} {f : DFields} (h : dataDecode b = some f) {c : Raw} (hc : f.content = some c) :
    c.value.length < 2 ^ 64 := by
  obtain ⟨-, es, hr, n, rest, mi, ct, si, sv, rfl, -, -, -, hfil, -, -, -, -, -, hct, -⟩ := (dataDecode_iff b f).1 h
  rw [hc] at hct
  subst hct
  have : c ∈ rest := by
    have : c ∈ rest.filter (fun e => e.type = 20 ∨ e.type = 21 ∨ e.type = 22 ∨ e.type = 23) := by
      rw [hfil]; simp
    exact (List.mem_filter.1 this).1
  obtain ⟨_, _, _, _, _, _, hl⟩ := hr.2 c (List.mem_cons_of_mem _ this)
  exact hl.lt

theorem Spec.LReach.inv {H : Bytes → Bytes} {l : Link} (hr : LReach H l) : LInv H l ∧ DelsWF l.dels := by
  have dec : ∀ {l : Link} {b : Raw}, RawWF b → (l.wireDecode b).1 = true →
      LInv H (l.wireDecode b).2 ∧ DelsWF (l.wireDecode b).2.dels := by
    intro l b hb hk
    have h : l.wireDecode b = (true, (l.wireDecode b).2) := by rw [← hk]
    refine ⟨link_decoded hb h, ?_⟩
    obtain ⟨d', h1, h2, h3⟩ := (wireDecode_link_iff _ _ _).1 h
    exact isLink_wf h3 fun c hc => decoded_content (DObj.wireDecode_fields h1).1 hc
  have enc : ∀ l : Link, DelsWF l.dels → LInv H (l.encodeContent H) ∧ DelsWF (l.encodeContent H).dels :=
    fun l h => ⟨encodeContent_linv H l (encodeContent_isLink H l h), h⟩
  induction hr with
  | make name ds h => exact enc _ h
  | ofWire b h hk => exact dec h hk
  | @step l op hr hp ih =>
    obtain ⟨ih, hwf⟩ := ih
    cases op with
    | set ds => exact enc _ hp
    | add n =>
      simp only [Link.step]
      by_cases h : l.dels.contains n = true
      · rw [if_pos h]; exact ⟨ih, hwf⟩
      · rw [if_neg h]; exact enc _ hp
    | remove n =>
      simp only [Link.step]
      by_cases h : (dropAll n l.dels).length = l.dels.length
      · rw [if_pos h]; exact ⟨ih, hwf⟩
      · rw [if_neg h]
        refine enc _ (DelsWF.sub hwf ?_)
        show (dropAll n l.dels).Sublist l.dels
        rw [dropAll_filter]
        exact List.filter_sublist
    | decode b => exact dec hp.1 hp.2
    | data op =>
      obtain ⟨k1, k2, k3⟩ := neutral_keeps ih.data hp.1 hp.2
      refine ⟨⟨k1, ?_⟩, hwf⟩
      have := ih.link
      unfold IsLink at this ⊢
      simp only [Link.step]
      rw [k2, k3]
      exact this

/-- **C69**, round trip: after any history of proper calls on a Link made from a name and a list of
delegations, or from a packet, encoding the Link gives octets that decode to a Link with the same
delegations in the same order. -/
theorem C69_roundtrip_partial (H : Bytes → Bytes) (l : Link) (hr : LReach H l) (hw : l.d.wire = none → DataWF l.d.f) :
    ∃ w b, (l.step H (.data .wireEncode)).2.d.wire = some w ∧ l.d.wireEncode.2 = some w ∧
      fromBuffer w = some (b, []) ∧ linkDecode b = some l.dels := by
  obtain ⟨hi, -⟩ := hr.inv
  simp only [Link.step, DObj.step]
  cases hwire : l.d.wire with
  | some w =>
    have e : l.d.wireEncode = (l.d, some w) := by unfold DObj.wireEncode; rw [hwire]
    obtain ⟨b, h1, h2, h3⟩ := hi.data.1 w hwire
    refine ⟨w, b, by rw [e]; exact hwire, by rw [e], ?_, (C69_decode_exact b _).2 ⟨_, h3, hi.link⟩⟩
    exact fromBuffer_iff.2 ⟨by simp [h1], h2⟩
  | none =>
    obtain ⟨w, h1, h2⟩ := C24_encode_keeps_fields l.d hwire (hw hwire)
    obtain ⟨w', b, h3, h4, h5, -⟩ := C23_roundtrip l.d.f (hw hwire)
    rw [h1] at h3; injection h3 with h3; subst h3
    exact ⟨w, b, by rw [h2], by rw [h2], h4, (C69_decode_exact b _).2 ⟨_, h5, hi.link⟩⟩

/-- **C69**: the delegations and the content of the packet always say the same, and reading them
never shows anything else: whatever other reading of the content is possible, it is this list. -/
theorem C69_content (H : Bytes → Bytes) (l : Link) (hr : LReach H l) (ds : List (List Comp)) :
    IsLink l.d.f ds ↔ ds = l.dels := by
  have key : ∀ ds, IsLink l.d.f ds → ∃ es, parseElements (contentValue l.d.f) = some es ∧ delLoop [] es = (true, ds) :=
    fun ds h => (content_iff l.d.f ds).2 h.2
  constructor
  · intro h
    obtain ⟨es, h1, h2⟩ := key ds h
    obtain ⟨es', h3, h4⟩ := key _ hr.inv.1.link
    rw [h1] at h3; injection h3 with h3; subst h3
    rw [h2] at h4; injection h4
  · rintro rfl; exact hr.inv.1.link

/-! ### What does not hold -/

/-- Whatever the constructor, a Link that can be encoded encodes to a Link with its delegations. -/
def C69_roundtrip_claim : Prop :=
  ∀ (H : Bytes → Bytes) (ops : List LOp) (l : Link), l = ops.foldl (fun l op => (l.step H op).2) Link.empty →
    DataWF l.d.f → (∀ op ∈ ops, ∀ o, op = .data o → neutral o = true) →
    ∀ w b, l.d.wireEncode.2 = some w → fromBuffer w = some (b, []) → linkDecode b = some l.dels

/-- A default-constructed Link that is named and signed but given no delegations is encoded as an
ordinary Data packet, which `Link` does not accept. -/
theorem C69_default_counterexample : ¬ C69_roundtrip_claim := by
  intro h
  have hwf : DataWF ⟨[⟨8, [65]⟩], MetaInfo.init, none, ⟨some 0, none, []⟩, some (binaryBlock 23 [9])⟩ :=
    { name := by intro c hc; simp only [List.mem_singleton] at hc; subst hc; decide
      minfo := ⟨by decide, by decide, (by intro c hc; cases hc), (by intro b hb; cases hb), by decide⟩
      content := by intro c hc; cases hc
      sigInfo := sampleData_wf.sigInfo
      sigValue := sampleData_wf.sigValue
      size := by
        intro w hw
        have e : (DFields.encode ⟨[⟨8, [65]⟩], MetaInfo.init, none, ⟨some 0, none, []⟩, some (binaryBlock 23 [9])⟩).map
          List.length = some 17 := by decide
        rw [hw] at e
        simp at e; omega }
  obtain ⟨w, b, h1, h2, h3, -⟩ := C23_roundtrip _ hwf
  obtain ⟨w', h4, h5⟩ := C24_encode_keeps_fields (DObj.reset
    ⟨[⟨8, [65]⟩], MetaInfo.init, none, ⟨some 0, none, []⟩, some (binaryBlock 23 [9])⟩) rfl hwf
  have h4' : DFields.encode ⟨[⟨8, [65]⟩], MetaInfo.init, none, ⟨some 0, none, []⟩, some (binaryBlock 23 [9])⟩ = some w' := h4
  rw [h1] at h4'; injection h4' with h4'; subst h4'
  have hh := h (fun _ => []) [.data (.setName [⟨8, [65]⟩]), .data (.setSignatureInfo ⟨some 0, none, []⟩),
    .data (.setSignatureValue [9])] _ rfl hwf (by
      intro op ho o e
      simp only [List.mem_cons, List.not_mem_nil, or_false] at ho
      rcases ho with rfl | rfl | rfl <;> (injection e with e; subst e; rfl)) w b (by
      have := congrArg Prod.snd h5
      exact this) h2
  obtain ⟨f, k1, k2, -⟩ := (C69_decode_exact b _).1 hh
  rw [h3] at k1
  injection k1 with k1
  subst k1
  exact absurd k2 (by decide)

/-- After any decoding, failed or not, the packet in the object carries the object's delegations. -/
def C69_failed_decode_claim : Prop :=
  ∀ (H : Bytes → Bytes) (l : Link) (b : Raw), LReach H l → RawWF b →
    IsLink (l.step H (.decode b)).2.d.f (l.step H (.decode b)).2.dels

/-- `wireDecode` of a Data packet that is not a Link throws, but the object has become that packet,
with the old delegations. -/
theorem C69_failed_decode_counterexample : ¬ C69_failed_decode_claim := by
  intro h
  obtain ⟨w, b, h1, h2, h3, -⟩ := C23_roundtrip _ sampleData_wf
  have hb : RawWF b := (fromBuffer_iff.1 h2).2
  have hr : LReach (fun _ => []) (Link.make (fun _ => []) [] [[⟨8, [1]⟩]]) :=
    LReach.make _ _ ⟨by intro n hn; simp only [List.mem_singleton] at hn; subst hn; intro c hc; simp only [List.mem_singleton] at hc; subst hc; decide, by decide⟩
  have := (h _ _ b hr hb).1
  have hd : ∀ l : Link, (l.wireDecode b).2.d.f = sampleData := by
    intro l
    obtain ⟨q1, es, q2, q3⟩ := (dataDecode_iff b _).1 h3
    have e : l.d.wireDecode b = (true, ⟨sampleData, some b.wire, []⟩) :=
      (DObj.wireDecode_iff _ _ _).2 ⟨q1, es, _, q2, q3, rfl⟩
    unfold Link.wireDecode
    rw [e]
    dsimp only
    rw [if_pos rfl, if_pos (by decide)]
  simp only [Link.step] at this
  rw [hd] at this
  exact absurd this (by decide)

/-- What holds: decoding that succeeds makes the object that packet, and its delegations those in
the packet; a Data packet that cannot be read is reported. -/
theorem C69_decode_partial (H : Bytes → Bytes) (l : Link) (b : Raw) :
    ((l.step H (.decode b)).1 = true ↔ ∃ f ds, dataDecode b = some f ∧ IsLink f ds) ∧
    ((l.step H (.decode b)).1 = true →
      dataDecode b = some (l.step H (.decode b)).2.d.f ∧
      IsLink (l.step H (.decode b)).2.d.f (l.step H (.decode b)).2.dels) := by
  have one : ∀ l : Link, (l.wireDecode b).1 = true →
      dataDecode b = some (l.wireDecode b).2.d.f ∧ IsLink (l.wireDecode b).2.d.f (l.wireDecode b).2.dels := by
    intro l hk
    obtain ⟨d', h1, h2, h3⟩ := (wireDecode_link_iff l (l.wireDecode b).2 b).1 (by rw [← hk])
    rw [h2]
    exact ⟨(DObj.wireDecode_fields h1).1, h3⟩
  refine ⟨⟨fun h => ⟨_, _, one l h⟩, ?_⟩, one l⟩
  rintro ⟨f, ds, h1, h2⟩
  obtain ⟨q1, es, q2, q3⟩ := (dataDecode_iff b f).1 h1
  have e : l.d.wireDecode b = (true, ⟨f, some b.wire, []⟩) := (DObj.wireDecode_iff _ _ _).2 ⟨q1, es, f, q2, q3, rfl⟩
  simp only [Link.step]
  rw [(wireDecode_link_iff l ⟨⟨f, some b.wire, []⟩, ds⟩ b).2 ⟨_, e, rfl, h2⟩]

/-! ### Instances -/

private def sampleLink : Link := Link.make (fun _ => []) [⟨8, [65]⟩] [[⟨8, [1]⟩], [⟨8, [2]⟩, ⟨8, [3]⟩]]

private theorem sampleLink_reach : LReach (fun _ => []) sampleLink :=
  LReach.make _ _ ⟨by intro n hn; simp only [List.mem_cons, List.not_mem_nil, or_false] at hn
                      rcases hn with rfl | rfl <;> (unfold NameWF; decide), by decide⟩

/-- A reachable Link with two delegations; adding one of them is refused, adding another works. -/
example : ∃ l, LReach (fun _ => []) l ∧ l.dels.length = 2 ∧ (l.step (fun _ => []) (.add [⟨8, [1]⟩])).1 = false ∧
    (l.step (fun _ => []) (.add [⟨8, [4]⟩])).2.dels = [[⟨8, [1]⟩], [⟨8, [2]⟩, ⟨8, [3]⟩], [⟨8, [4]⟩]] :=
  ⟨sampleLink, sampleLink_reach, by decide, by decide, by decide⟩

/-- A Link that can be encoded. -/
example : ∃ l, LReach (fun _ => []) l ∧ DataWF l.d.f ∧ l.d.wire = none ∧ l.dels.length = 2 := by
  refine ⟨((sampleLink.step (fun _ => []) (.data (.setSignatureInfo ⟨some 0, none, []⟩))).2.step (fun _ => [])
    (.data (.setSignatureValue [9]))).2, ?_, ?_, by decide, by decide⟩
  · refine LReach.step (LReach.step sampleLink_reach ⟨rfl, ?_⟩) ⟨rfl, ?_⟩ <;> (intro h; cases h)
  · show DataWF ⟨[⟨8, [65]⟩], ⟨1, 0, none, []⟩, some (linkContent [[⟨8, [1]⟩], [⟨8, [2]⟩, ⟨8, [3]⟩]]),
      ⟨some 0, none, []⟩, some (binaryBlock 23 [9])⟩
    exact
    { name := by intro c hc; simp only [List.mem_singleton] at hc; subst hc; decide
      minfo := ⟨by decide, by decide, (by intro c hc; cases hc), (by intro b hb; cases hb), by decide⟩
      content := by
        intro c hc
        injection hc with hc
        subst hc
        exact ⟨binaryBlock_wf (by decide) (by decide) (by decide), rfl⟩
      sigInfo := sampleData_wf.sigInfo
      sigValue := sampleData_wf.sigValue
      size := by
        intro w hw
        have e : (DFields.encode ⟨[⟨8, [65]⟩], ⟨1, 0, none, []⟩, some (linkContent [[⟨8, [1]⟩], [⟨8, [2]⟩, ⟨8, [3]⟩]]),
          ⟨some 0, none, []⟩, some (binaryBlock 23 [9])⟩).map List.length = some 35 := by decide
        rw [hw] at e
        simp at e; omega }

end Ndn.Object
