import Verif.Netlink.Lemmas
/-
Invariants of the monitor.
-/
namespace Ndn.Netlink
open Spec

/-! ### Finding interfaces -/

theorem find_insert (i : Iface) (l : List Iface) (idx : Int) :
    (insertIf i l).find? (fun x => x.index = idx) = if i.index = idx then some i else l.find? (fun x => x.index = idx) := by
  induction l with
  | nil => simp only [insertIf, List.find?_cons, List.find?_nil]; split <;> simp_all
  | cons x l ih =>
    simp only [insertIf]
    split
    · simp only [List.find?_cons]; split <;> simp_all
    · split
      · rename_i h1 h2
        simp only [List.find?_cons]
        by_cases h : i.index = idx
        · simp [h]
        · have : ¬ x.index = idx := by omega
          simp [h, this]
      · rename_i h1 h2
        simp only [List.find?_cons, ih]
        by_cases h : x.index = idx
        · have : ¬ i.index = idx := by omega
          simp [h, this]
        · simp [h]

theorem find_filter (l : List Iface) (j idx : Int) :
    (l.filter (fun x => x.index ≠ j)).find? (fun x => x.index = idx) = if j = idx then none else l.find? (fun x => x.index = idx) := by
  induction l with
  | nil => simp
  | cons x l ih =>
    rw [List.filter_cons]
    by_cases hx : x.index = j
    · rw [if_neg (by simpa using hx), ih, List.find?_cons]
      by_cases h : j = idx
      · simp [h]
      · have : ¬ x.index = idx := by omega
        simp [h, this]
    · rw [if_pos (by simpa using hx), List.find?_cons, List.find?_cons, ih]
      by_cases h : x.index = idx
      · have : ¬ j = idx := by omega
        simp [h, this]
      · simp [h]

theorem find_index {M : Mon} {idx : Int} {i : Iface} (h : M.find idx = some i) : i.index = idx := by
  have := List.find?_some h
  simpa using this

theorem mem_insert {i x : Iface} {l : List Iface} (h : x ∈ insertIf i l) : x = i ∨ x ∈ l := by
  induction l with
  | nil => simp [insertIf] at h; exact .inl h
  | cons y l ih =>
    simp only [insertIf] at h
    split at h
    · rcases List.mem_cons.mp h with h | h
      · exact .inl h
      · exact .inr h
    · split at h
      · rcases List.mem_cons.mp h with h | h
        · exact .inl h
        · exact .inr (List.mem_cons_of_mem _ h)
      · rcases List.mem_cons.mp h with h | h
        · exact .inr (h ▸ List.mem_cons_self)
        · rcases ih h with h | h
          · exact .inl h
          · exact .inr (List.mem_cons_of_mem _ h)

def Sorted (l : List Iface) : Prop := l.Pairwise (fun a b => a.index < b.index)

theorem sorted_insert (i : Iface) (l : List Iface) (h : Sorted l) : Sorted (insertIf i l) := by
  induction l with
  | nil => simp [insertIf, Sorted]
  | cons y l ih =>
    obtain ⟨h1, h2⟩ := List.pairwise_cons.mp h
    simp only [insertIf]
    split
    · rename_i hlt
      refine List.pairwise_cons.mpr ⟨fun a ha => ?_, h⟩
      rcases List.mem_cons.mp ha with ha | ha
      · rw [ha]; exact hlt
      · exact Int.lt_trans hlt (h1 a ha)
    · split
      · rename_i he
        exact List.pairwise_cons.mpr ⟨fun a ha => by rw [he]; exact h1 a ha, h2⟩
      · refine List.pairwise_cons.mpr ⟨fun a ha => ?_, ih h2⟩
        rcases mem_insert ha with ha | ha
        · rw [ha]; omega
        · exact h1 a ha

/-! ### Induction over a run -/

theorem handle_inv (P : Mon → Prop) (h1 : ∀ M m, P M → P (M.rtnl m)) (h2 : ∀ (M : Mon) b p w, P M → P { M with buf := b, pending := p, waiting := w })
    (g : Nat) (ms : List Bytes) : ∀ M : Mon, P M → P (M.handle g ms).1 := by
  induction ms with
  | nil => intro M h; exact h
  | cons m ms ih =>
    intro M h
    simp only [Mon.handle]
    cases hd : M.dispatch g m with
    | none => exact h
    | some M' =>
      refine ih M' ?_
      unfold Mon.dispatch at hd
      dsimp only at hd
      split at hd
      · cases hd; exact h
      · split at hd
        · cases hd; exact h
        · split at hd
          · cases hd
          · split at hd
            · cases hd
              exact h2 (M.rtnl m) (M.rtnl m).buf _ (M.rtnl m).waiting (h1 M m h)
            · cases hd; exact h1 M m h

theorem recv_inv (P : Mon → Prop) (h1 : ∀ M m, P M → P (M.rtnl m)) (h2 : ∀ (M : Mon) b p w, P M → P { M with buf := b, pending := p, waiting := w })
    (M : Mon) (d : Dgram) (h : P M) : P (M.recv d).1 := by
  have h0 : P { M with buf := d.data ++ M.buf.drop d.data.length } := h2 M _ M.pending M.waiting h
  unfold Mon.recv
  dsimp only
  split
  · exact h2 _ _ M.pending false h
  · split
    · exact h0
    · have := handle_inv P h1 h2 d.group (scan ((d.data ++ M.buf.drop d.data.length).length + 1) (d.data ++ M.buf.drop d.data.length) 0 d.data.length).1 _ h0
      split
      · exact h2 _ _ _ _ this
      · exact h2 _ _ _ _ this

theorem run_inv (P : Mon → Prop) (h1 : ∀ M m, P M → P (M.rtnl m)) (h2 : ∀ (M : Mon) b p w, P M → P { M with buf := b, pending := p, waiting := w })
    (ds : List Dgram) : ∀ M : Mon, P M → P (M.run ds) := by
  induction ds with
  | nil => intro M h; exact h
  | cons d ds ih =>
    intro M h
    refine ih (M.step d) ?_
    unfold Mon.step
    split
    · exact recv_inv P h1 h2 M d h
    · exact h

/-! ### What a message does, in parts -/

theorem rtnl_inv (P : Mon → Prop) (hl : ∀ M m, P M → P (Mon.link M m)) (ha : ∀ M m, P M → P (Mon.address M m))
    (hc : ∀ M, P M → P (Mon.changed M)) (hd : ∀ M, P M → P (Mon.doneMsg M)) (M : Mon) (m : Bytes) (h : P M) : P (M.rtnl m) := by
  unfold Mon.rtnl
  dsimp only
  split
  · exact hc _ (hl _ _ h)
  · split
    · exact hc _ (ha _ _ h)
    · split
      · exact hc _ h
      · split
        · exact hd _ h
        · exact h

/-! ### Signals -/

def HonestFrom : View → List Ev → Prop
  | _, [] => True
  | v, e :: es => Truthful v e ∧ HonestFrom (learn v e) es

theorem honestFrom_append (v : View) (a b : List Ev) : HonestFrom v (a ++ b) ↔ HonestFrom v a ∧ HonestFrom (a.foldl learn v) b := by
  induction a generalizing v with
  | nil => simp [HonestFrom]
  | cons e a ih => simp only [List.cons_append, HonestFrom, ih, List.foldl_cons, and_assoc]

theorem told_append (a b : List Ev) : told (a ++ b) = b.foldl learn (told a) := by simp [told]

/-- The signals `evs` tell of the change from `i` to `i'` to whoever knows `i`. -/
def Trans (i : Iface) (evs : List Ev) (i' : Iface) : Prop :=
  i'.index = i.index ∧ ∀ v : View, (v i.index = none ∨ v i.index = some (snap i)) →
    HonestFrom v evs ∧ evs.foldl learn v = put v i.index ((v i.index).map fun _ => snap i')

theorem set_same (v : View) (k : Int) : put v k (v k) = v := by
  funext j; unfold put; split
  · rename_i h; rw [h]
  · rfl

theorem set_set (v : View) (k : Int) (a b : Option Seen) : put (put v k a) k b = put v k b := by
  funext j; unfold put; split <;> rfl

theorem set_at (v : View) (k : Int) (a : Option Seen) : put v k a k = a := by simp [put]

theorem trans_silent {i i' : Iface} (h : i'.index = i.index) (hs : snap i' = snap i) : Trans i [] i' := by
  refine ⟨h, fun v hv => ⟨trivial, ?_⟩⟩
  have : (v i.index).map (fun _ => snap i') = v i.index := by
    rcases hv with hv | hv <;> rw [hv] <;> simp [hs]
  rw [this]; exact (set_same _ _).symm

theorem trans_assert {i i' : Iface} (h : i'.index = i.index) (hs : snap i' = snap i) : Trans i [.assertion] i' := by
  refine ⟨h, fun v hv => ⟨⟨trivial, trivial⟩, ?_⟩⟩
  exact ((trans_silent h hs).2 v hv).2

theorem Trans.comp {a b c : Iface} {e f : List Ev} (h1 : Trans a e b) (h2 : Trans b f c) : Trans a (e ++ f) c := by
  refine ⟨h2.1.trans h1.1, fun v hv => ?_⟩
  obtain ⟨p, q⟩ := h1.2 v hv
  have hb : put v a.index ((v a.index).map fun _ => snap b) b.index = none ∨
      put v a.index ((v a.index).map fun _ => snap b) b.index = some (snap b) := by
    rw [h1.1, set_at]
    rcases hv with hv | hv <;> rw [hv] <;> simp
  obtain ⟨p', q'⟩ := h2.2 _ hb
  refine ⟨(honestFrom_append _ _ _).mpr ⟨p, by rw [q]; exact p'⟩, ?_⟩
  rw [List.foldl_append, q, q', h1.1, set_set, set_at]
  rcases hv with hv | hv <;> rw [hv] <;> simp

theorem trans_mtu (i : Iface) (m : Nat) : Trans i (i.setMtu m).2 (i.setMtu m).1 := by
  unfold Iface.setMtu
  split
  · exact trans_silent rfl rfl
  · rename_i h
    refine ⟨rfl, fun v hv => ⟨⟨⟨h, fun s hs => ?_⟩, trivial⟩, ?_⟩⟩
    · rcases hv with hv | hv
      · rw [hv] at hs; cases hs
      · rw [hv] at hs; cases hs; rfl
    · simp only [List.foldl_cons, List.foldl_nil, learn]
      rcases hv with hv | hv <;> rw [hv] <;> rfl

theorem trans_state (i : Iface) (m : IfState) : Trans i (i.setState m).2 (i.setState m).1 := by
  unfold Iface.setState
  split
  · exact trans_silent rfl rfl
  · rename_i h
    refine ⟨rfl, fun v hv => ⟨⟨⟨h, fun s hs => ?_⟩, trivial⟩, ?_⟩⟩
    · rcases hv with hv | hv
      · rw [hv] at hs; cases hs
      · rw [hv] at hs; cases hs; rfl
    · simp only [List.foldl_cons, List.foldl_nil, learn]
      rcases hv with hv | hv <;> rw [hv] <;> rfl

/-- The interface before the MTU and the state are put. -/
def Iface.fields (i : Iface) (p : Bytes) (as : List (Nat × Bytes)) : Iface :=
  { i with
    type := ifType (u16 p 2)
    flags := u32 p 8
    ether := ((attr as 1).bind (toFixed 6)).getD i.ether
    brd := ((attr as 2).bind (toFixed 6)).getD i.brd
    name := ((attr as 3).bind toStr).getD i.name }

theorem update_eq (i : Iface) (p : Bytes) (as : List (Nat × Bytes)) :
    ∃ e, (e = [] ∨ e = [Ev.assertion]) ∧
      i.update p as =
        let r2 := match (attr as 4).bind toU32 with
          | some m => (i.fields p as).setMtu m
          | none => (i.fields p as, [])
        let r3 := r2.1.setState (operState (u32 p 8) (((attr as 16).bind toU8).getD 0))
        (r3.1, e ++ r2.2 ++ r3.2) := by
  unfold Iface.update Iface.fields
  cases (attr as 1).bind (toFixed 6) <;> cases (attr as 2).bind (toFixed 6) <;> cases (attr as 3).bind toStr with
  | none => exact ⟨[], .inl rfl, rfl⟩
  | some n =>
    by_cases hn : n = []
    · exact ⟨[Ev.assertion], .inr rfl, by simp only [hn, if_true]; rfl⟩
    · exact ⟨[], .inl rfl, by simp only [hn, if_false]; rfl⟩

theorem trans_update (i : Iface) (p : Bytes) (as : List (Nat × Bytes)) : Trans i (i.update p as).2 (i.update p as).1 := by
  obtain ⟨e, he, hu⟩ := update_eq i p as
  rw [hu]
  have h1 : Trans i e (i.fields p as) := by
    rcases he with he | he <;> rw [he]
    · exact trans_silent rfl rfl
    · exact trans_assert rfl rfl
  cases (attr as 4).bind toU32 with
  | none =>
    have := (h1.comp (trans_silent (i := i.fields p as) rfl rfl)).comp (trans_state (i.fields p as) (operState (u32 p 8) (((attr as 16).bind toU8).getD 0)))
    exact this
  | some m =>
    exact (h1.comp (trans_mtu (i.fields p as) m)).comp (trans_state _ _)

theorem any_filter (l : List Addr) (a ip : Ip) :
    (l.filter (fun x => x.ip ≠ a)).any (fun x => x.ip = ip) = (decide (ip ≠ a) && l.any (fun x => x.ip = ip)) := by
  induction l with
  | nil => simp
  | cons x l ih =>
    rw [List.filter_cons]
    by_cases hx : x.ip = a
    · rw [if_neg (by simpa using hx), ih, List.any_cons]
      by_cases h : ip = a
      · simp [h]
      · have : ¬ x.ip = ip := fun e => h (e ▸ hx)
        simp [h, this]
    · rw [if_pos (by simpa using hx), List.any_cons, List.any_cons, ih]
      by_cases h : ip = a
      · have : ¬ x.ip = ip := fun e => hx (e.trans h)
        simp [h, hx]
      · simp [h]

theorem filter_same (l : List Addr) (a : Ip) :
    ((l.filter (fun x => x.ip ≠ a)).length = l.length) ↔ l.any (fun x => x.ip = a) = false := by
  rw [List.length_filter_eq_length_iff]
  simp

theorem trans_addAddr (i : Iface) (a : Addr) (v : View) (hv : v i.index = some (snap i)) :
    (i.addAddr a).1.index = i.index ∧ HonestFrom v (i.addAddr a).2 ∧
      (i.addAddr a).2.foldl learn v = put v i.index (some (snap (i.addAddr a).1)) := by
  unfold Iface.addAddr
  dsimp only
  split
  · exact ⟨rfl, trivial, by rw [← hv]; exact (set_same _ _).symm⟩
  · have hs : snap { i with addrs := i.addrs.filter (fun x => x.ip ≠ a.ip) ++ [a] } =
        { snap i with has := fun ip => decide (ip = a.ip) || (snap i).has ip } := by
      unfold snap
      simp only [Seen.mk.injEq, true_and]
      funext ip
      rw [List.any_append, any_filter]
      by_cases h : ip = a.ip
      · simp [h]
      · have : ¬ a.ip = ip := fun e => h e.symm
        simp [h, this]
    split
    · rename_i h
      rw [filter_same] at h
      refine ⟨rfl, ⟨⟨snap i, hv, h⟩, trivial⟩, ?_⟩
      simp only [List.foldl_cons, List.foldl_nil, learn, hv, Option.map_some]
      rw [hs]
    · rename_i h
      rw [filter_same] at h
      refine ⟨rfl, trivial, ?_⟩
      have h' : (snap i).has a.ip = true := by
        unfold snap
        cases hh : i.addrs.any (fun x => x.ip = a.ip)
        · exact absurd hh h
        · exact hh
      have : snap { i with addrs := i.addrs.filter (fun x => x.ip ≠ a.ip) ++ [a] } = snap i := by
        rw [hs]
        cases hi : snap i with
        | mk s m hh =>
          simp only [Seen.mk.injEq, true_and]
          funext ip
          by_cases e : ip = a.ip
          · rw [hi] at h'; subst e; simpa using h'.symm
          · simp [e]
      rw [this, ← hv]; exact (set_same _ _).symm

theorem trans_removeAddr (i : Iface) (a : Addr) (v : View) (hv : v i.index = some (snap i)) :
    (i.removeAddr a).1.index = i.index ∧ HonestFrom v (i.removeAddr a).2 ∧
      (i.removeAddr a).2.foldl learn v = put v i.index (some (snap (i.removeAddr a).1)) := by
  unfold Iface.removeAddr
  dsimp only
  have hs : snap { i with addrs := i.addrs.filter (fun x => x.ip ≠ a.ip) } =
      { snap i with has := fun ip => decide (ip ≠ a.ip) && (snap i).has ip } := by
    unfold snap
    simp only [Seen.mk.injEq, true_and]
    funext ip
    rw [any_filter]
  split
  · rename_i h
    refine ⟨rfl, trivial, ?_⟩
    have e : i.addrs.filter (fun x => x.ip ≠ a.ip) = i.addrs := by
      rw [List.length_filter_eq_length_iff] at h
      exact List.filter_eq_self.mpr h
    have : snap { i with addrs := i.addrs.filter (fun x => x.ip ≠ a.ip) } = snap i := by rw [e]
    rw [this, ← hv]; exact (set_same _ _).symm
  · rename_i h
    rw [filter_same] at h
    have h' : (snap i).has a.ip = true := by
      unfold snap
      cases hh : i.addrs.any (fun x => x.ip = a.ip)
      · exact absurd hh h
      · exact hh
    refine ⟨rfl, ⟨⟨snap i, hv, h'⟩, trivial⟩, ?_⟩
    simp only [List.foldl_cons, List.foldl_nil, learn, hv, Option.map_some]
    rw [hs]

/-- What is known is what there is, and no signal lied. -/
def Known (M : Mon) : Prop := (∀ idx, told M.log idx = (M.find idx).map snap) ∧ HonestFrom (fun _ => none) M.log

theorem known_more {M : Mon} {evs : List Ev} {ifs : List Iface} (h : Known M) (hh : HonestFrom (told M.log) evs)
    (hv : ∀ idx, evs.foldl learn (told M.log) idx = (ifs.find? (fun i => i.index = idx)).map snap) :
    Known { M with ifs := ifs, log := M.log ++ evs } := by
  refine ⟨fun idx => ?_, (honestFrom_append _ _ _).mpr ⟨h.2, hh⟩⟩
  dsimp only
  rw [told_append]; exact hv idx

theorem known_neutral {M M' : Mon} {e : Ev} (h : Known M) (hn : ∀ v, learn v e = v) (ht : ∀ v, Truthful v e) (hi : M'.ifs = M.ifs)
    (hl : M'.log = M.log ++ [e]) : Known M' := by
  refine ⟨fun idx => ?_, ?_⟩
  · rw [hl, told_append]
    simp only [List.foldl_cons, List.foldl_nil, hn]
    rw [h.1 idx]
    unfold Mon.find
    rw [hi]
  · rw [hl]
    exact (honestFrom_append _ _ _).mpr ⟨h.2, ht _, trivial⟩

theorem known_changed (M : Mon) (h : Known M) : Known M.changed := by
  unfold Mon.changed
  split
  · exact known_neutral (e := .networkChanged) h (fun _ => rfl) (fun _ => trivial) rfl rfl
  · exact h

theorem known_sendDump (M : Mon) (t : Nat) (h : Known M) : Known (M.sendDump t) :=
  known_neutral (e := .sent t ((M.seq + 1) % 2 ^ 32)) h (fun _ => rfl) (fun _ => trivial) rfl rfl

theorem known_done (M : Mon) (h : Known M) : Known M.doneMsg := by
  unfold Mon.doneMsg
  split
  · exact known_sendDump _ _ h
  · exact known_neutral (e := .enumCompleted) h (fun _ => rfl) (fun _ => trivial) rfl rfl
  · exact h

theorem told_at {M : Mon} (h : Known M) {idx : Int} {i : Iface} (hf : M.find idx = some i) : told M.log i.index = some (snap i) := by
  rw [h.1, find_index hf, hf]; rfl

theorem known_link (M : Mon) (m : Bytes) (h : Known M) : Known (M.link m) := by
  unfold Mon.link
  split
  · exact h
  · rename_i p _
    split
    · exact h
    · dsimp only
      split
      · split
        · rename_i i hf
          refine known_more h ⟨⟨_, told_at h hf⟩, trivial⟩ (fun idx => ?_)
          simp only [List.foldl_cons, List.foldl_nil, learn, put]
          rw [find_filter, find_index hf]
          by_cases e : idx = toInt (u32 p 4)
          · simp [e]
          · rw [if_neg e, if_neg (fun x => e x.symm), h.1]; rfl
        · exact h
      · split
        · rename_i i hf
          obtain ⟨t1, t2⟩ := trans_update i p (msgAttrs m 16)
          obtain ⟨a, b⟩ := t2 _ (.inr (told_at h hf))
          refine known_more h a (fun idx => ?_)
          rw [b, find_insert, told_at h hf, t1]
          unfold put
          by_cases e : idx = i.index
          · simp [e]
          · rw [if_neg e, if_neg (fun x => e x.symm), h.1]; rfl
        · rename_i hf
          obtain ⟨t1, t2⟩ := trans_update (Iface.new (toInt (u32 p 4))) p (msgAttrs m 16)
          have hn : told M.log (Iface.new (toInt (u32 p 4))).index = none := by
            rw [h.1]; show Option.map snap (M.find (toInt (u32 p 4))) = none; rw [hf]; rfl
          obtain ⟨a, b⟩ := t2 _ (.inl hn)
          rw [hn] at b
          rw [Option.map_none, ← hn, set_same] at b
          rw [List.append_assoc]
          refine known_more h ?_ (fun idx => ?_)
          · refine (honestFrom_append _ _ _).mpr ⟨a, ?_, trivial⟩
            rw [b]
            show told M.log _ = none
            rw [t1]; exact hn
          · rw [List.foldl_append, b]
            simp only [List.foldl_cons, List.foldl_nil, learn]
            rw [find_insert]
            unfold put
            by_cases e : idx = ((Iface.new (toInt (u32 p 4))).update p (msgAttrs m 16)).1.index
            · simp [e]
            · rw [if_neg e, if_neg (fun x => e x.symm), h.1]; rfl

theorem known_address (M : Mon) (m : Bytes) (h : Known M) : Known (M.address m) := by
  unfold Mon.address
  split
  · exact h
  · rename_i p _
    split
    · exact h
    · rename_i i hf
      dsimp only
      split
      · exact h
      · rw [List.append_assoc]
        have key : ∀ (r : Iface × List Ev), r.1.index = i.index ∧ HonestFrom (told M.log) r.2 ∧
            r.2.foldl learn (told M.log) = put (told M.log) i.index (some (snap r.1)) →
            Known { M with ifs := insertIf r.1 M.ifs, log := M.log ++ ((if (addrOf p (msgAttrs m 8)).family = .unspecified then [.assertion] else []) ++ r.2) } := by
          rintro r ⟨r1, r2, r3⟩
          have q : ∀ v : View, (if (addrOf p (msgAttrs m 8)).family = .unspecified then [Ev.assertion] else []).foldl learn v = v := by
            intro v; split <;> rfl
          refine known_more h ?_ (fun idx => ?_)
          · refine (honestFrom_append _ _ _).mpr ⟨?_, by rw [q]; exact r2⟩
            split
            · exact ⟨trivial, trivial⟩
            · trivial
          · rw [List.foldl_append, q, r3, find_insert, r1]
            unfold put
            by_cases e : idx = i.index
            · simp [e]
            · rw [if_neg e, if_neg (fun x => e x.symm), h.1]; rfl
        split
        · exact key _ (trans_addAddr i _ _ (told_at h hf))
        · exact key _ (trans_removeAddr i _ _ (told_at h hf))

theorem known_init (seq0 pid : Nat) (buf : Bytes) : Known (Mon.init seq0 pid buf) :=
  known_sendDump _ _ ⟨fun _ => rfl, trivial⟩

theorem known_run (seq0 pid : Nat) (buf : Bytes) (ds : List Dgram) : Known ((Mon.init seq0 pid buf).run ds) :=
  run_inv Known (rtnl_inv Known known_link known_address known_changed known_done) (fun _ _ _ _ h => h) ds _ (known_init _ _ _)

/-! ### Order of the interfaces -/

theorem sorted_rtnl (M : Mon) (m : Bytes) (h : Sorted M.ifs) : Sorted (M.rtnl m).ifs := by
  refine rtnl_inv (fun M => Sorted M.ifs) ?_ ?_ ?_ ?_ M m h
  · intro M m h
    unfold Mon.link
    split
    · exact h
    · split
      · exact h
      · dsimp only
        split
        · split
          · exact List.Pairwise.filter _ h
          · exact h
        · split
          · exact sorted_insert _ _ h
          · exact sorted_insert _ _ h
  · intro M m h
    unfold Mon.address
    split
    · exact h
    · split
      · exact h
      · dsimp only
        split
        · exact h
        · exact sorted_insert _ _ h
  · intro M h; unfold Mon.changed; split <;> exact h
  · intro M h; unfold Mon.doneMsg; split <;> exact h

/-! ### The enumeration -/

/-- The requests and the completion among the events. -/
def progress (log : List Ev) : List Ev := log.filter fun e => match e with | .sent _ _ => true | .enumCompleted => true | _ => false

/-- What the events say of the enumeration is what its phase is. -/
def Stage (seq0 : Nat) (M : Mon) : Prop :=
  (match M.phase with
    | .links => M.seq = (seq0 + 1) % 2 ^ 32 ∧ progress M.log = [.sent 18 ((seq0 + 1) % 2 ^ 32)]
    | .addrs => progress M.log = [.sent 18 ((seq0 + 1) % 2 ^ 32), .sent 22 ((seq0 + 2) % 2 ^ 32)]
    | .complete => progress M.log = [.sent 18 ((seq0 + 1) % 2 ^ 32), .sent 22 ((seq0 + 2) % 2 ^ 32), .enumCompleted]) ∧
  (∀ l1 l2, M.log = l1 ++ .networkChanged :: l2 → .enumCompleted ∈ l1)

theorem stage_more {seq0 : Nat} {M M' : Mon} {evs : List Ev} (h : Stage seq0 M) (hp : M'.phase = M.phase) (hs : M'.seq = M.seq)
    (hl : M'.log = M.log ++ evs) (hn : progress evs = []) (hc : .networkChanged ∉ evs) : Stage seq0 M' := by
  refine ⟨?_, ?_⟩
  · rw [hp, hs, hl]
    have : progress (M.log ++ evs) = progress M.log := by
      unfold progress at hn ⊢; rw [List.filter_append, hn, List.append_nil]
    rw [this]; exact h.1
  · intro l1 l2 e
    rw [hl] at e
    rcases List.append_eq_append_iff.mp e with ⟨a, e1, e2⟩ | ⟨a, e1, e2⟩
    · exact absurd (e2 ▸ List.mem_append_right _ List.mem_cons_self) hc
    · cases a with
      | nil =>
        simp only [List.nil_append] at e2
        exact absurd (e2 ▸ List.mem_cons_self) hc
      | cons b a =>
        simp only [List.cons_append, List.cons.injEq] at e2
        exact h.2 l1 a (by rw [e1, ← e2.1])

/-- Events about an interface or an assertion. -/
def Minor (e : Ev) : Prop := e ≠ .networkChanged ∧ progress [e] = []

theorem progress_minor {evs : List Ev} (h : ∀ e ∈ evs, Minor e) : progress evs = [] ∧ .networkChanged ∉ evs := by
  induction evs with
  | nil => exact ⟨rfl, by simp⟩
  | cons e l ih =>
    obtain ⟨a, b⟩ := ih (fun x hx => h x (List.mem_cons_of_mem _ hx))
    obtain ⟨c, d⟩ := h e List.mem_cons_self
    refine ⟨?_, ?_⟩
    · have : progress (e :: l) = progress [e] ++ progress l := by
        unfold progress; rw [← List.filter_append]; rfl
      rw [this, a, d]; rfl
    · intro hm
      rcases List.mem_cons.mp hm with hm | hm
      · exact c hm.symm
      · exact b hm

theorem minor_update (i : Iface) (p : Bytes) (as : List (Nat × Bytes)) : ∀ e ∈ (i.update p as).2, Minor e := by
  obtain ⟨e, he, hu⟩ := update_eq i p as
  rw [hu]
  have m1 : ∀ (i : Iface) m, ∀ e ∈ (i.setMtu m).2, Minor e := by
    intro i m e h; unfold Iface.setMtu at h; split at h
    · cases h
    · rw [List.mem_singleton.mp h]; exact ⟨by simp, rfl⟩
  have m2 : ∀ (i : Iface) m, ∀ e ∈ (i.setState m).2, Minor e := by
    intro i m e h; unfold Iface.setState at h; split at h
    · cases h
    · rw [List.mem_singleton.mp h]; exact ⟨by simp, rfl⟩
  have m0 : ∀ x ∈ e, Minor x := by
    intro x hx; rcases he with he | he <;> rw [he] at hx
    · cases hx
    · rw [List.mem_singleton.mp hx]; exact ⟨by simp, rfl⟩
  intro x hx
  dsimp only at hx
  rcases List.mem_append.mp hx with hx | hx
  · rcases List.mem_append.mp hx with hx | hx
    · exact m0 x hx
    · cases h4 : (attr as 4).bind toU32 with
      | none => rw [h4] at hx; cases hx
      | some m => rw [h4] at hx; exact m1 _ _ x hx
  · exact m2 _ _ x hx

theorem stage_link {seq0 : Nat} (M : Mon) (m : Bytes) (h : Stage seq0 M) : Stage seq0 (M.link m) := by
  unfold Mon.link
  split
  · exact h
  · rename_i p _
    split
    · exact h
    · dsimp only
      split
      · split
        · rename_i i _
          obtain ⟨a, b⟩ := progress_minor (evs := [.ifRemoved i]) (fun e he => by rw [List.mem_singleton.mp he]; exact ⟨by simp, rfl⟩)
          exact stage_more h rfl rfl rfl a b
        · exact h
      · split
        · rename_i i _
          obtain ⟨a, b⟩ := progress_minor (minor_update i p (msgAttrs m 16))
          exact stage_more h rfl rfl rfl a b
        · obtain ⟨a, b⟩ := progress_minor (evs := ((Iface.new (toInt (u32 p 4))).update p (msgAttrs m 16)).2 ++ [.ifAdded ((Iface.new (toInt (u32 p 4))).update p (msgAttrs m 16)).1]) (fun e he => by
            rcases List.mem_append.mp he with he | he
            · exact minor_update _ _ _ e he
            · rw [List.mem_singleton.mp he]; exact ⟨by simp, rfl⟩)
          exact stage_more h rfl rfl (List.append_assoc _ _ _) a b

theorem stage_address {seq0 : Nat} (M : Mon) (m : Bytes) (h : Stage seq0 M) : Stage seq0 (M.address m) := by
  unfold Mon.address
  split
  · exact h
  · rename_i p _
    split
    · exact h
    · rename_i i hf
      dsimp only
      split
      · exact h
      · have e1 : ∀ e ∈ (if (addrOf p (msgAttrs m 8)).family = .unspecified then [Ev.assertion] else []), Minor e := by
          intro e he; split at he
          · rw [List.mem_singleton.mp he]; exact ⟨by simp, rfl⟩
          · cases he
        have e2 : ∀ e ∈ (i.addAddr (addrOf p (msgAttrs m 8))).2, Minor e := by
          intro e he; unfold Iface.addAddr at he; dsimp only at he; split at he
          · cases he
          · dsimp only at he
            split at he
            · rw [List.mem_singleton.mp he]; exact ⟨by simp, rfl⟩
            · cases he
        have e3 : ∀ e ∈ (i.removeAddr (addrOf p (msgAttrs m 8))).2, Minor e := by
          intro e he; unfold Iface.removeAddr at he; dsimp only at he; split at he
          · cases he
          · rw [List.mem_singleton.mp he]; exact ⟨by simp, rfl⟩
        split
        · obtain ⟨a, b⟩ := progress_minor (fun e he => (List.mem_append.mp he).elim (e1 e) (e2 e))
          exact stage_more h rfl rfl (List.append_assoc _ _ _) a b
        · obtain ⟨a, b⟩ := progress_minor (fun e he => (List.mem_append.mp he).elim (e1 e) (e3 e))
          exact stage_more h rfl rfl (List.append_assoc _ _ _) a b

theorem changed_split {l : List Ev} {e : Ev} {l1 l2 : List Ev} (h : l ++ [e] = l1 ++ .networkChanged :: l2) :
    (∃ l2', l = l1 ++ .networkChanged :: l2') ∨ (e = .networkChanged ∧ l1 = l) := by
  rcases List.append_eq_append_iff.mp h with ⟨a, e1, e2⟩ | ⟨a, e1, e2⟩
  · cases a with
    | nil => simp only [List.nil_append, List.append_nil, List.cons.injEq] at e1 e2; exact .inr ⟨e2.1, e1⟩
    | cons b a => simp at e2
  · cases a with
    | nil => simp only [List.nil_append, List.append_nil, List.cons.injEq] at e1 e2; exact .inr ⟨e2.1.symm, e1.symm⟩
    | cons b a =>
      simp only [List.cons_append, List.cons.injEq] at e2
      exact .inl ⟨a, by rw [e1, ← e2.1]⟩

theorem stage_changed {seq0 : Nat} (M : Mon) (h : Stage seq0 M) : Stage seq0 M.changed := by
  unfold Mon.changed
  split
  · rename_i hp
    have hh := h.1
    refine ⟨?_, ?_⟩
    · simp only [hp] at hh ⊢
      unfold progress at hh ⊢
      rw [List.filter_append, hh]; rfl
    · intro l1 l2 e
      rcases changed_split e with ⟨l2', e⟩ | ⟨_, e⟩
      · exact h.2 l1 l2' e
      · rw [e]
        simp only [hp] at hh
        have : Ev.enumCompleted ∈ progress M.log := by rw [hh]; simp
        exact (List.mem_filter.mp this).1
  · exact h

theorem stage_done {seq0 : Nat} (M : Mon) (h : Stage seq0 M) : Stage seq0 M.doneMsg := by
  have hh := h.1
  unfold Mon.doneMsg
  split
  · rename_i hp
    simp only [hp] at hh
    have hs : (M.seq + 1) % 2 ^ 32 = (seq0 + 2) % 2 ^ 32 := by omega
    refine ⟨?_, ?_⟩
    · simp only [Mon.sendDump, hs]
      obtain ⟨_, h2⟩ := hh
      unfold progress at h2 ⊢
      rw [List.filter_append, h2]; rfl
    · intro l1 l2 e
      simp only [Mon.sendDump] at e
      rcases changed_split e with ⟨l2', e⟩ | ⟨e, _⟩
      · exact h.2 l1 l2' e
      · cases e
  · rename_i hp
    simp only [hp] at hh
    refine ⟨?_, ?_⟩
    · simp only
      unfold progress at hh ⊢
      rw [List.filter_append, hh]; rfl
    · intro l1 l2 e
      rcases changed_split e with ⟨l2', e⟩ | ⟨e, _⟩
      · exact h.2 l1 l2' e
      · cases e
  · exact h

theorem stage_run (seq0 pid : Nat) (buf : Bytes) (ds : List Dgram) : Stage seq0 ((Mon.init seq0 pid buf).run ds) :=
  run_inv (Stage seq0) (rtnl_inv (Stage seq0) stage_link stage_address stage_changed stage_done) (fun _ _ _ _ h => h) ds _
    ⟨⟨rfl, rfl⟩, fun l1 l2 e => by
      rcases changed_split (l := []) e with ⟨l2', e⟩ | ⟨e, _⟩
      · cases l1 <;> cases e
      · cases e⟩

end Ndn.Netlink
