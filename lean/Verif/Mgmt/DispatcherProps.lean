import Verif.Mgmt.DispatcherLemmas
/-
C65: prefixes of a dispatcher never overlap, so that an Interest reaches at most one handler.
C82: commands and dataset requests are processed as documented.
C83: notifications are numbered consecutively.
-/
namespace Ndn.Mgmt
open Tlv Block Name Packet

/-- The log of a run. -/
def logOf (s : Settings) (es : List Ev) : Log := es.zip (Disp.run s es {}).1

theorem log_inv {s : Settings} (hs : Consistent s) (es : List Ev) : DispInv (logOf s es) (Disp.run s es {}).2 := by
  have := (disp_run hs es [] {} disp_init).1
  rwa [List.nil_append] at this

theorem pairwise_eq {α : Type} {R : α → α → Prop} {l : List α} (h : l.Pairwise R) {x y : α} (hx : x ∈ l) (hy : y ∈ l) :
    x = y ∨ R x y ∨ R y x := by
  induction h with
  | nil => cases hx
  | cons h1 _ ih =>
    rcases List.mem_cons.1 hx with hx | hx <;> rcases List.mem_cons.1 hy with hy | hy
    · exact Or.inl (hx.trans hy.symm)
    · exact Or.inr (Or.inl (hx ▸ h1 _ hy))
    · exact Or.inr (Or.inr (hy ▸ h1 _ hx))
    · exact ih hx hy

/-! ### C65 -/

/-- No top-level prefix in force is a prefix of another. -/
theorem C65_tops (s : Settings) (hs : Consistent s) (es : List Ev) (t t' : List Comp) (h : TopLive (logOf s es) t)
    (h' : TopLive (logOf s es) t') (ho : Overlap t t') : t = t' := by
  have i := log_inv hs es
  obtain ⟨fs, hf⟩ := (i.tops t).1 h
  obtain ⟨fs', hf'⟩ := (i.tops t').1 h'
  rcases pairwise_eq i.topsPw hf hf' with he | he | he
  · exact congrArg Prod.fst he
  · exact absurd ho he
  · exact absurd ho.symm he

/-- No handler's prefix is a prefix of another's, and no prefix has two handlers. -/
theorem C65_handlers (s : Settings) (hs : Consistent s) (es : List Ev) (r r' : List Comp) (h h' : Handler)
    (h1 : HasHandler (logOf s es) r h) (h2 : HasHandler (logOf s es) r' h') (ho : Overlap r r') : r = r' ∧ h = h' := by
  have i := log_inv hs es
  rcases pairwise_eq i.handlersPw ((i.handlers _ _).2 h1) ((i.handlers _ _).2 h2) with he | he | he
  · cases he; exact ⟨rfl, rfl⟩
  · exact absurd ho he
  · exact absurd ho.symm he

/-- At most one handler, under at most one top-level prefix, is responsible for an Interest. -/
theorem C65_unique (s : Settings) (hs : Consistent s) (es : List Ev) (name t t' r r' : List Comp) (h h' : Handler)
    (h1 : Responsible (logOf s es) t r h name) (h2 : Responsible (logOf s es) t' r' h' name) : t = t' ∧ r = r' ∧ h = h' := by
  have ht := C65_tops s hs es t t' h1.1 h2.1
    (prefix_cmp ((List.prefix_append _ _).trans h1.2.2) ((List.prefix_append _ _).trans h2.2.2))
  subst ht
  have ho : Overlap r r' := by
    rcases prefix_cmp h1.2.2 h2.2.2 with h | h
    · exact Or.inl ((List.prefix_append_right_inj t).1 h)
    · exact Or.inr ((List.prefix_append_right_inj t).1 h)
  obtain ⟨e1, e2⟩ := C65_handlers s hs es r r' h h' h1.2.1 h2.2.1 ho
  exact ⟨rfl, e1, e2⟩

/-- What each registration does: a top-level prefix is refused exactly if it overlaps with one in force; a handler is refused
exactly if there is a top-level prefix or it overlaps with a handler. -/
theorem C65_register (s : Settings) (hs : Consistent s) (es : List Ev) (k : Nat) (e : Ev) (hk : es[k]? = some e) :
    ∃ os, (Disp.run s es {}).1[k]? = some os ∧
      (∀ p, e = .addTop p → (os = [] ↔ ∀ t, TopLive ((logOf s es).take k) t → ¬ Overlap t p) ∧
        (os ≠ [] → os = [.outOfRange])) ∧
      (∀ r h, e = .addHandler r h →
        (os = [] ↔ (∀ t, ¬ TopLive ((logOf s es).take k) t) ∧ ∀ r' h', HasHandler ((logOf s es).take k) r' h' → ¬ Overlap r' r) ∧
        (os = [.domainError] ↔ ∃ t, TopLive ((logOf s es).take k) t)) := by
  obtain ⟨os, h1, h2⟩ := (disp_run hs es [] {} disp_init).2.2 k e hk
  rw [List.nil_append] at h2
  refine ⟨os, h1, ?_, ?_⟩
  · rintro p rfl
    obtain ⟨g1, g2⟩ := h2
    by_cases hc : ∃ t, TopLive ((logOf s es).take k) t ∧ Overlap t p
    · have := g1 hc
      subst this
      refine ⟨⟨(fun h => by cases h), fun hn => ?_⟩, fun _ => rfl⟩
      obtain ⟨t, q1, q2⟩ := hc
      exact absurd q2 (hn t q1)
    · have hn : ∀ t, TopLive ((logOf s es).take k) t → ¬ Overlap t p := fun t q1 q2 => hc ⟨t, q1, q2⟩
      have := g2 hn
      subst this
      exact ⟨⟨fun _ => hn, fun _ => rfl⟩, fun h => absurd rfl h⟩
  · rintro r h rfl
    obtain ⟨g1, g2⟩ := h2
    by_cases hc : ∃ t, TopLive ((logOf s es).take k) t
    · have := g1 hc
      subst this
      refine ⟨⟨(fun h => by cases h), fun hn => ?_⟩, ⟨fun _ => hc, fun _ => rfl⟩⟩
      obtain ⟨t, ht⟩ := hc
      exact absurd ht (hn.1 t)
    · have hn : ∀ t, ¬ TopLive ((logOf s es).take k) t := fun t ht => hc ⟨t, ht⟩
      obtain ⟨g3, g4⟩ := g2 hn
      by_cases hc2 : ∃ r' h', HasHandler ((logOf s es).take k) r' h' ∧ Overlap r' r
      · have := g3 hc2
        subst this
        refine ⟨⟨(fun h => by cases h), fun hh => ?_⟩, ⟨(fun h => by cases h), fun h => absurd h hc⟩⟩
        obtain ⟨r', h', q1, q2⟩ := hc2
        exact absurd q2 (hh.2 r' h' q1)
      · have hn2 : ∀ r' h', HasHandler ((logOf s es).take k) r' h' → ¬ Overlap r' r := fun r' h' q1 q2 => hc2 ⟨r', h', q1, q2⟩
        have := g4 hn2
        subst this
        exact ⟨⟨fun _ => ⟨hn, hn2⟩, fun _ => rfl⟩, ⟨(fun h => by cases h), fun h => absurd h hc⟩⟩

/-! ### C82 -/

/-- Whatever happened before, each event is answered as the documentation says; see `Expected`. -/
theorem C82_processing (s : Settings) (hs : Consistent s) (es : List Ev) (k : Nat) (e : Ev) (hk : es[k]? = some e) :
    ∃ os, (Disp.run s es {}).1[k]? = some os ∧ Expected s ((logOf s es).take k) e os := by
  have := (disp_run hs es [] {} disp_init).2.2 k e hk
  simpa [logOf] using this

/-- A command handler only runs when the application accepts a request that was handed to the authorization function
before, with the same top-level prefix and name; for a new-style command its parameters are those that were authorized, valid,
with the defaults filled in. -/
theorem C82_authorized (s : Settings) (hs : Consistent s) (es : List Ev) (k : Nat) (os : List Out) (t name : List Comp)
    (p : Params) (hk : (Disp.run s es {}).1[k]? = some os) (ho : .handle t name p ∈ os) :
    ∃ i calls v p0 rel h, es[k]? = some (.accept i calls v) ∧
      (requests ((logOf s es).take k))[i]? = some (t, name, some p0) ∧
      HasHandler ((logOf s es).take k) rel h ∧ t ++ rel <+: name ∧
      ((∃ c, h = .command c ∧ c.validateRequest p0 = .accept ∧ p = c.applyDefaults p0) ∨
       (∃ w q, h = .oldCommand w ∧ Normalised w p0 q ∧ w q = some p)) := by
  have hlen := (disp_run hs es [] {} disp_init).2.1
  have hlt : k < es.length := by
    have := (List.getElem?_eq_some_iff.1 hk).1
    rw [hlen] at this; exact this
  have hek : es[k]? = some es[k] := List.getElem?_eq_getElem hlt
  obtain ⟨os', h1, h2⟩ := C82_processing s hs es k es[k] hek
  rw [hk] at h1
  cases h1
  generalize es[k] = e at hek h2
  cases e with
  | addTop q =>
    exfalso
    by_cases hc : ∃ u, TopLive ((logOf s es).take k) u ∧ Overlap u q
    · rw [h2.1 hc] at ho; simp at ho
    · rw [h2.2 (fun u q1 q2 => hc ⟨u, q1, q2⟩)] at ho; cases ho
  | removeTop q => rw [show os = [] from h2] at ho; cases ho
  | addHandler r h =>
    exfalso
    by_cases hc : ∃ u, TopLive ((logOf s es).take k) u
    · rw [h2.1 hc] at ho; simp at ho
    · obtain ⟨g1, g2⟩ := h2.2 (fun u q1 => hc ⟨u, q1⟩)
      by_cases hc2 : ∃ r' h', HasHandler ((logOf s es).take k) r' h' ∧ Overlap r' r
      · rw [g1 hc2] at ho; simp at ho
      · rw [g2 (fun r' h' q1 q2 => hc2 ⟨r', h', q1, q2⟩)] at ho; cases ho
  | interest n hit =>
    exfalso
    by_cases hc : ∃ t rel h, Responsible ((logOf s es).take k) t rel h n
    · obtain ⟨u, rel, h, hr⟩ := hc
      have hsv := h2.1 u rel h hr
      cases h with
      | command c =>
        cases hx : n[u.length + 2]? with
        | none => rw [hsv.2 (fun c p h => by rw [hx] at h; cases h)] at ho; cases ho
        | some x =>
          cases hy : paramsIn x with
          | none => rw [hsv.2 (fun c p h => by rw [hx] at h; cases h; rw [hy]; intro h; cases h)] at ho; cases ho
          | some y => rw [hsv.1 x y hx hy] at ho; simp at ho
      | oldCommand w =>
        cases hx : n[u.length + rel.length]? with
        | none =>
          have hl : n.length = u.length + rel.length := by
            rw [List.getElem?_eq_none_iff] at hx
            have := hr.2.2.length_le
            rw [List.length_append] at this
            omega
          rw [hsv.1 hl] at ho; simp at ho
        | some x =>
          obtain ⟨g1, g2⟩ := hsv.2 x hx
          cases hy : paramsIn x with
          | none => rw [g2 hy] at ho; cases ho
          | some y => rw [g1 y hy] at ho; simp at ho
      | dataset =>
        by_cases hst : ∃ i x, hit = some i ∧ (storedBy ((logOf s es).take k))[i]? = some x
        · obtain ⟨i, x, q1, q2⟩ := hst
          rw [hsv.1 i x q1 q2] at ho; simp at ho
        · have hno : ∀ i, hit = some i → (storedBy ((logOf s es).take k))[i]? = none := by
            intro i hi
            cases hy : (storedBy ((logOf s es).take k))[i]? with
            | none => rfl
            | some x => exact absurd ⟨i, x, hi, hy⟩ hst
          obtain ⟨g1, g2⟩ := hsv.2 hno
          by_cases hv : ∃ c, n.getLast? = some c ∧ (Conv.version.is s c = true ∨ Conv.segment.is s c = true)
          · rw [g1 hv] at ho; cases ho
          · rw [g2 (fun c hc => by
              constructor
              · cases hz : Conv.version.is s c
                · rfl
                · exact absurd ⟨c, hc, Or.inl hz⟩ hv
              · cases hz : Conv.segment.is s c
                · rfl
                · exact absurd ⟨c, hc, Or.inr hz⟩ hv)] at ho
            simp at ho
      | stream =>
        by_cases hst : ∃ i x, hit = some i ∧ (storedBy ((logOf s es).take k))[i]? = some x
        · obtain ⟨i, x, q1, q2⟩ := hst
          rw [hsv.1 i x q1 q2] at ho; simp at ho
        · have hno : ∀ i, hit = some i → (storedBy ((logOf s es).take k))[i]? = none := by
            intro i hi
            cases hy : (storedBy ((logOf s es).take k))[i]? with
            | none => rfl
            | some x => exact absurd ⟨i, x, hi, hy⟩ hst
          rw [hsv.2 hno] at ho; cases ho
    · rw [h2.2 (fun u r h q => hc ⟨u, r, h, q⟩)] at ho; cases ho
  | accept i calls v =>
    cases hq : (requests ((logOf s es).take k))[i]? with
    | none => rw [h2.2 hq] at ho; cases ho
    | some x =>
      obtain ⟨t', name', p'⟩ := x
      obtain ⟨rel, h, g1, g2, g3⟩ := h2.1 t' name' p' hq
      cases h with
      | command c =>
        cases p' with
        | none => exact g3.elim
        | some p0 =>
          by_cases hv : c.validateRequest p0 = .accept
          · rw [g3.1 hv] at ho
            simp only [List.mem_singleton, Out.handle.injEq] at ho
            obtain ⟨rfl, rfl, rfl⟩ := ho
            exact ⟨i, calls, v, p0, rel, _, hek, hq, g1, g2, Or.inl ⟨c, rfl, hv, rfl⟩⟩
          · obtain ⟨x, hx, _⟩ := g3.2 hv
            rw [hx] at ho; simp at ho
      | oldCommand w =>
        cases p' with
        | none => exact g3.elim
        | some p0 =>
          obtain ⟨q, hn, q1, q2⟩ := g3
          cases hw : w q with
          | none =>
            obtain ⟨x, hx, _⟩ := q2 hw
            rw [hx] at ho; simp at ho
          | some r =>
            rw [q1 r hw] at ho
            simp only [List.mem_singleton, Out.handle.injEq] at ho
            obtain ⟨rfl, rfl, rfl⟩ := ho
            exact ⟨i, calls, v, p0, rel, _, hek, hq, g1, g2, Or.inr ⟨w, q, rfl, hn, hw⟩⟩
      | dataset =>
        cases p' with
        | some _ => exact g3.elim
        | none =>
          exfalso
          cases hm : Ctx.make s name' v with
          | none => rw [g3.2 hm] at ho; simp at ho
          | some c =>
            obtain ⟨rest, q1, q2⟩ := g3.1 c hm
            rw [q1] at ho
            simp only [List.mem_cons, reduceCtorEq, false_or] at ho
            have key : ∀ sent rest, Dataset s name' sent rest → Out.handle t name p ∉ rest := by
              intro sent
              induction sent with
              | nil => intro rest h; rw [show rest = [] from h]; simp
              | cons x xs ih =>
                intro rest h
                cases x with
                | nack code =>
                  obtain ⟨x, os', rfl, _, _, _, h'⟩ := h
                  simp [ih _ h']
                | data n b f =>
                  obtain ⟨x, l, kk, os', _, _, _, _, _, _, rfl, h'⟩ := h
                  have := ih _ h'
                  split <;> simp [this]
            exact key _ _ q2 ho
      | stream => cases p' <;> exact g3.elim
  | reject i b =>
    exfalso
    cases hq : (requests ((logOf s es).take k))[i]? with
    | none => rw [h2.2 hq] at ho; cases ho
    | some x =>
      obtain ⟨t', name', p'⟩ := x
      obtain ⟨g1, g2⟩ := h2.1 t' name' p' hq
      cases b with
      | true => obtain ⟨x, hx, _⟩ := g1 rfl; rw [hx] at ho; simp at ho
      | false => rw [g2 rfl] at ho; cases ho
  | done j r =>
    exfalso
    cases hq : (handled ((logOf s es).take k))[j]? with
    | none => rw [h2.2 hq] at ho; cases ho
    | some n => obtain ⟨x, hx, _⟩ := h2.1 n hq; rw [hx] at ho; simp at ho
  | post rel b =>
    exfalso
    obtain ⟨g1, g2, g3⟩ := h2
    by_cases hn : ∃ u, TopLive ((logOf s es).take k) u
    · obtain ⟨u, hu⟩ := hn
      by_cases hu2 : ∀ u', TopLive ((logOf s es).take k) u' → u' = u
      · obtain ⟨x, n, hx, _⟩ := g1 u hu hu2
        rw [hx] at ho; simp at ho
      · have : ∃ a b, TopLive ((logOf s es).take k) a ∧ TopLive ((logOf s es).take k) b ∧ a ≠ b := by
          apply Classical.byContradiction
          intro hc
          apply hu2
          intro u' hu'
          apply Classical.byContradiction
          intro hne
          exact hc ⟨u', u, hu', hu, hne⟩
        rw [g3 this] at ho; cases ho
    · rw [g2 (fun u hu => hn ⟨u, hu⟩)] at ho; cases ho

/-- No Interest makes the dispatcher read outside a name. -/
def C82_memory_claim : Prop :=
  ∀ (s : Settings) (es : List Ev) (os : List Out), os ∈ (Disp.run s es {}).1 → Out.ub ∉ os

/-- An old-style command is registered, and an Interest comes whose name is that of the command and nothing more. -/
def shortCommand : List Ev :=
  [.addHandler [⟨8, [97]⟩] (.oldCommand some), .addTop [⟨8, [98]⟩], .interest [⟨8, [98]⟩, ⟨8, [97]⟩] none]

/-- An Interest named exactly as an old-style command makes the dispatcher read past the end of the name. -/
theorem C82_memory_counterexample : ¬ C82_memory_claim := by
  intro h
  exact h ⟨false, true, true⟩ shortCommand [.ub] (by simp [shortCommand, Disp.run, Disp.step, Disp.addHandler, Disp.addTop,
    Disp.filtersFor, Disp.deliverAll, Disp.deliver]) (by simp)

/-- The only way to read outside a name: an Interest whose name is exactly that of an old-style command. -/
theorem C82_memory_partial (s : Settings) (hs : Consistent s) (es : List Ev) (k : Nat) (os : List Out)
    (hk : (Disp.run s es {}).1[k]? = some os) (name : List Comp) (hit : Option Nat)
    (he : es[k]? = some (.interest name hit)) (ho : Out.ub ∈ os) :
    ∃ t rel w, TopLive ((logOf s es).take k) t ∧ HasHandler ((logOf s es).take k) rel (.oldCommand w) ∧ name = t ++ rel := by
  obtain ⟨os', h1, h2⟩ := C82_processing s hs es k _ he
  rw [hk] at h1
  cases h1
  by_cases hc : ∃ t rel h, Responsible ((logOf s es).take k) t rel h name
  · obtain ⟨u, rel, h, hr⟩ := hc
    have hsv := h2.1 u rel h hr
    cases h with
    | command c =>
      exfalso
      cases hx : name[u.length + 2]? with
      | none => rw [hsv.2 (fun c p h => by rw [hx] at h; cases h)] at ho; cases ho
      | some x =>
        cases hy : paramsIn x with
        | none => rw [hsv.2 (fun c p h => by rw [hx] at h; cases h; rw [hy]; intro h; cases h)] at ho; cases ho
        | some y => rw [hsv.1 x y hx hy] at ho; simp at ho
    | oldCommand w =>
      cases hx : name[u.length + rel.length]? with
      | none =>
        rw [List.getElem?_eq_none_iff] at hx
        refine ⟨u, rel, w, hr.1, hr.2.1, ?_⟩
        exact (hr.2.2.eq_of_length_le (by simpa using hx)).symm
      | some x =>
        exfalso
        obtain ⟨g1, g2⟩ := hsv.2 x hx
        cases hy : paramsIn x with
        | none => rw [g2 hy] at ho; cases ho
        | some y => rw [g1 y hy] at ho; simp at ho
    | dataset =>
      exfalso
      by_cases hst : ∃ i x, hit = some i ∧ (storedBy ((logOf s es).take k))[i]? = some x
      · obtain ⟨i, x, q1, q2⟩ := hst
        rw [hsv.1 i x q1 q2] at ho; simp at ho
      · have hno : ∀ i, hit = some i → (storedBy ((logOf s es).take k))[i]? = none := by
          intro i hi
          cases hy : (storedBy ((logOf s es).take k))[i]? with
          | none => rfl
          | some x => exact absurd ⟨i, x, hi, hy⟩ hst
        obtain ⟨g1, g2⟩ := hsv.2 hno
        by_cases hv : ∃ c, name.getLast? = some c ∧ (Conv.version.is s c = true ∨ Conv.segment.is s c = true)
        · rw [g1 hv] at ho; cases ho
        · rw [g2 (fun c hc => by
            constructor
            · cases hz : Conv.version.is s c
              · rfl
              · exact absurd ⟨c, hc, Or.inl hz⟩ hv
            · cases hz : Conv.segment.is s c
              · rfl
              · exact absurd ⟨c, hc, Or.inr hz⟩ hv)] at ho
          simp at ho
    | stream =>
      exfalso
      by_cases hst : ∃ i x, hit = some i ∧ (storedBy ((logOf s es).take k))[i]? = some x
      · obtain ⟨i, x, q1, q2⟩ := hst
        rw [hsv.1 i x q1 q2] at ho; simp at ho
      · have hno : ∀ i, hit = some i → (storedBy ((logOf s es).take k))[i]? = none := by
          intro i hi
          cases hy : (storedBy ((logOf s es).take k))[i]? with
          | none => rfl
          | some x => exact absurd ⟨i, x, hi, hy⟩ hst
        rw [hsv.2 hno] at ho; cases ho
  · rw [h2.2 (fun u r h q => hc ⟨u, r, h, q⟩)] at ho; cases ho

/-- Nothing but an Interest makes the dispatcher read outside a name. -/
theorem C82_memory_elsewhere (s : Settings) (hs : Consistent s) (es : List Ev) (k : Nat) (e : Ev) (os : List Out)
    (he : es[k]? = some e) (hk : (Disp.run s es {}).1[k]? = some os) (hne : ∀ name hit, e ≠ .interest name hit) :
    Out.ub ∉ os := by
  obtain ⟨os', h1, h2⟩ := C82_processing s hs es k e he
  rw [hk] at h1
  cases h1
  generalize (logOf s es).take k = l at h2
  cases e with
  | addTop q =>
    by_cases hc : ∃ u, TopLive l u ∧ Overlap u q
    · rw [h2.1 hc]; simp
    · rw [h2.2 (fun u q1 q2 => hc ⟨u, q1, q2⟩)]; simp
  | removeTop q => rw [show os = [] from h2]; simp
  | addHandler r h =>
    by_cases hc : ∃ u, TopLive l u
    · rw [h2.1 hc]; simp
    · obtain ⟨g1, g2⟩ := h2.2 (fun u q1 => hc ⟨u, q1⟩)
      by_cases hc2 : ∃ r' h', HasHandler l r' h' ∧ Overlap r' r
      · rw [g1 hc2]; simp
      · rw [g2 (fun r' h' q1 q2 => hc2 ⟨r', h', q1, q2⟩)]; simp
  | interest n hit => exact absurd rfl (hne n hit)
  | accept i calls v =>
    cases hq : (requests l)[i]? with
    | none => rw [h2.2 hq]; simp
    | some x =>
      obtain ⟨t', name', p'⟩ := x
      obtain ⟨rel, h, g1, g2, g3⟩ := h2.1 t' name' p' hq
      cases h with
      | command c =>
        cases p' with
        | none => exact g3.elim
        | some p0 =>
          by_cases hv : c.validateRequest p0 = .accept
          · rw [g3.1 hv]; simp
          · obtain ⟨x, hx, _⟩ := g3.2 hv
            rw [hx]; simp
      | oldCommand w =>
        cases p' with
        | none => exact g3.elim
        | some p0 =>
          obtain ⟨q, hn, q1, q2⟩ := g3
          cases hw : w q with
          | none => obtain ⟨x, hx, _⟩ := q2 hw; rw [hx]; simp
          | some r => rw [q1 r hw]; simp
      | dataset =>
        cases p' with
        | some _ => exact g3.elim
        | none =>
          cases hm : Ctx.make s name' v with
          | none => rw [g3.2 hm]; simp
          | some c =>
            obtain ⟨rest, q1, q2⟩ := g3.1 c hm
            rw [q1]
            simp only [List.mem_cons, reduceCtorEq, false_or]
            have key : ∀ sent rest, Dataset s name' sent rest → Out.ub ∉ rest := by
              intro sent
              induction sent with
              | nil => intro rest h; rw [show rest = [] from h]; simp
              | cons x xs ih =>
                intro rest h
                cases x with
                | nack code =>
                  obtain ⟨x, os', rfl, _, _, _, h'⟩ := h
                  simp [ih _ h']
                | data n b f =>
                  obtain ⟨x, l, kk, os', _, _, _, _, _, _, rfl, h'⟩ := h
                  have := ih _ h'
                  split <;> simp [this]
            exact key _ _ q2
      | stream => cases p' <;> exact g3.elim
  | reject i b =>
    cases hq : (requests l)[i]? with
    | none => rw [h2.2 hq]; simp
    | some x =>
      obtain ⟨t', name', p'⟩ := x
      obtain ⟨g1, g2⟩ := h2.1 t' name' p' hq
      cases b with
      | true => obtain ⟨x, hx, _⟩ := g1 rfl; rw [hx]; simp
      | false => rw [g2 rfl]; simp
  | done j r =>
    cases hq : (handled l)[j]? with
    | none => rw [h2.2 hq]; simp
    | some n => obtain ⟨x, hx, _⟩ := h2.1 n hq; rw [hx]; simp
  | post rel b =>
    obtain ⟨g1, g2, g3⟩ := h2
    by_cases hn : ∃ u, TopLive l u
    · obtain ⟨u, hu⟩ := hn
      by_cases hu2 : ∀ u', TopLive l u' → u' = u
      · obtain ⟨x, n, hx, _⟩ := g1 u hu hu2
        rw [hx]; simp
      · have : ∃ a b, TopLive l a ∧ TopLive l b ∧ a ≠ b := by
          apply Classical.byContradiction
          intro hc
          apply hu2
          intro u' hu'
          apply Classical.byContradiction
          intro hne
          exact hc ⟨u', u, hu', hu, hne⟩
        rw [g3 this]; simp
    · rw [g2 (fun u hu => hn ⟨u, hu⟩)]; simp

/-! ### C83 -/

theorem getStream_set (m : List (List Comp × Nat)) (a b : List Comp) (n : Nat) :
    getStream (setStream m a n) b = if a = b then n else getStream m b := by
  unfold getStream setStream
  by_cases h : a = b
  · rw [List.find?_cons_of_pos (by simpa using h), if_pos h]
  · rw [List.find?_cons_of_neg (by simpa using h), if_neg h, List.find?_filter]
    have : (fun x : List Comp × Nat => decide (decide (x.1 ≠ a) = true ∧ decide (x.1 = b) = true)) =
        fun x => decide (x.1 = b) := by
      funext x
      by_cases hx : x.1 = b
      · have : x.1 ≠ a := fun h' => h (h'.symm.trans hx)
        simp [hx, this]
        exact fun h' => h h'.symm
      · simp [hx]
    simp only [this]

/-- A stream is not registered under the full name of a stream that has been used. -/
def FreshStreams (es : List Ev) (l : Log) : Prop :=
  ∀ (k : Nat) rel, es[k]? = some (.addHandler rel .stream) → notifications rel (l.take k) = []

theorem notifications_snoc (f : List Comp) (l : Log) (e : Ev × List Out) :
    notifications f (l ++ [e]) = notifications f l ++ notifications f [e] := by
  unfold notifications; rw [List.filterMap_append]

/-- The names of the notifications of one stream, in the order in which they are posted, end in the sequence numbers 0, 1, 2
and so on. -/
def C83_claim : Prop :=
  ∀ (s : Settings) (es : List Ev) (stream : List Comp), Consistent s → es.length < 2 ^ 64 →
    notifications stream (logOf s es) =
      (List.range (notifications stream (logOf s es)).length).map
        (fun n => stream ++ [Spec.convComp s.encodeMarker .sequence n])

theorem stream_step {s : Settings} {l : Log} {d : Disp} (e : Ev) (f : List Comp)
    (h : getStream d.streams f = (notifications f l).length)
    (hn : notifications f l = (List.range (notifications f l).length).map
      (fun n => f ++ [Spec.convComp s.encodeMarker .sequence n]))
    (hl : (notifications f l).length + 1 < 2 ^ 64)
    (hf : ∀ rel, e = .addHandler rel .stream → notifications rel l = []) :
    getStream (d.step s e).2.streams f = (notifications f (l ++ [(e, (d.step s e).1)])).length ∧
    notifications f (l ++ [(e, (d.step s e).1)]) = (List.range (notifications f (l ++ [(e, (d.step s e).1)])).length).map
      (fun n => f ++ [Spec.convComp s.encodeMarker .sequence n]) := by
  have quiet : ∀ (e : Ev) (os : List Out) (m : List (List Comp × Nat)), (∀ r b, e ≠ .post r b) →
      getStream m f = getStream d.streams f →
      getStream m f = (notifications f (l ++ [(e, os)])).length ∧
      notifications f (l ++ [(e, os)]) = (List.range (notifications f (l ++ [(e, os)])).length).map
        (fun n => f ++ [Spec.convComp s.encodeMarker .sequence n]) := by
    intro e os m hne hm
    have : notifications f (l ++ [(e, os)]) = notifications f l := by
      rw [notifications_snoc]
      have : notifications f [(e, os)] = [] := by
        unfold notifications
        cases e <;> simp only [List.filterMap_cons, List.filterMap_nil]
        exact absurd rfl (hne _ _)
      rw [this, List.append_nil]
    rw [this, hm]
    exact ⟨h, hn⟩
  cases e with
  | addTop p =>
    apply quiet _ _ _ (by simp)
    simp only [Disp.step, Disp.addTop]; split <;> rfl
  | removeTop p => exact quiet _ _ _ (by simp) rfl
  | addHandler rel hd =>
    apply quiet _ _ _ (by simp)
    simp only [Disp.step, Disp.addHandler]
    split
    · rfl
    · split
      · rfl
      · cases hd with
        | stream =>
          simp only
          rw [getStream_set]
          split
          · rename_i he
            subst he
            rw [h, hf rel rfl]; rfl
          · rfl
        | _ => rfl
  | interest name hit =>
    apply quiet _ _ _ (by simp)
    simp only [Disp.step]
    have : ∀ fs (d : Disp), (Disp.deliverAll s name hit fs d).2.streams = d.streams := by
      intro fs
      induction fs with
      | nil => intro d; rfl
      | cons x xs ih =>
        intro d
        obtain ⟨t, rel, hd⟩ := x
        simp only [Disp.deliverAll]
        rw [ih]
        cases hd <;> simp only [Disp.deliver, Disp.authorize] <;> repeat' split
        all_goals rfl
    rw [this]
  | accept i calls v =>
    apply quiet _ _ _ (by simp)
    simp only [Disp.step, Disp.accept]
    split
    · rfl
    · split
      · split <;> rfl
      · split <;> rfl
      · split <;> rfl
      · rfl
  | reject i b =>
    apply quiet _ _ _ (by simp)
    simp only [Disp.step, Disp.reject]; repeat' split
    all_goals rfl
  | done j r =>
    apply quiet _ _ _ (by simp)
    simp only [Disp.step, Disp.done]; split <;> rfl
  | post rel b =>
    simp only [Disp.step, Disp.post]
    match ht : d.tops with
    | [] =>
      simp only
      rw [notifications_snoc]
      rw [show notifications f [(Ev.post rel b, ([] : List Out))] = [] from rfl, List.append_nil]
      exact ⟨h, hn⟩
    | t :: u :: r =>
      simp only
      rw [notifications_snoc]
      rw [show notifications f [(Ev.post rel b, ([] : List Out))] = [] from rfl, List.append_nil]
      exact ⟨h, hn⟩
    | [t] =>
      simp only
      rw [notifications_snoc, getStream_set]
      generalize hg : getStream d.streams (t.1 ++ rel) = n
      have hd : ((t.1 ++ rel) ++ (Conv.sequence.from s n).toList).dropLast = t.1 ++ rel := by
        rw [seq_name]; simp
      by_cases hc : t.1 ++ rel = f
      · have hx : notifications f [(Ev.post rel b,
            [Out.store { name := t.1 ++ rel ++ (Conv.sequence.from s n).toList, content := .bytes b },
             Out.put { name := t.1 ++ rel ++ (Conv.sequence.from s n).toList, content := .bytes b }])] =
            [f ++ [Spec.convComp s.encodeMarker .sequence n]] := by
          unfold notifications
          simp only [List.filterMap_cons, List.filterMap_nil, hd]
          rw [if_pos hc, seq_name, hc]
        rw [hx, if_pos hc]
        rw [hc, h] at hg
        rw [List.length_append, List.length_singleton]
        refine ⟨?_, ?_⟩
        · rw [← hg]; exact Nat.mod_eq_of_lt hl
        · rw [List.range_succ, List.map_append, ← hn, ← hg]; rfl
      · have hx : notifications f [(Ev.post rel b,
            [Out.store { name := t.1 ++ rel ++ (Conv.sequence.from s n).toList, content := .bytes b },
             Out.put { name := t.1 ++ rel ++ (Conv.sequence.from s n).toList, content := .bytes b }])] = [] := by
          unfold notifications
          simp only [List.filterMap_cons, List.filterMap_nil, hd]
          rw [if_neg hc]
        rw [hx, if_neg hc, List.append_nil]
        exact ⟨h, hn⟩

theorem notifications_le (f : List Comp) (l : Log) : (notifications f l).length ≤ l.length :=
  List.length_filterMap_le _ _

theorem stream_run {s : Settings} (f : List Comp) : ∀ (es : List Ev) (l : Log) (d : Disp),
    getStream d.streams f = (notifications f l).length →
    notifications f l = (List.range (notifications f l).length).map
      (fun n => f ++ [Spec.convComp s.encodeMarker .sequence n]) →
    l.length + es.length < 2 ^ 64 →
    (∀ (k : Nat) rel, es[k]? = some (.addHandler rel .stream) →
      notifications rel (l ++ (es.zip (Disp.run s es d).1).take k) = []) →
    notifications f (l ++ es.zip (Disp.run s es d).1) =
      (List.range (notifications f (l ++ es.zip (Disp.run s es d).1)).length).map
        (fun n => f ++ [Spec.convComp s.encodeMarker .sequence n]) := by
  intro es
  induction es with
  | nil => intro l d h hn _ _; simpa [Disp.run] using hn
  | cons e es ih =>
    intro l d h hn hl hf
    have hle := notifications_le f l
    simp only [List.length_cons] at hl
    obtain ⟨g1, g2⟩ := stream_step (s := s) (d := d) e f h hn (by omega) (by
      rintro rel rfl
      have := hf 0 rel rfl
      simpa using this)
    have := ih (l ++ [(e, (d.step s e).1)]) (d.step s e).2 g1 g2 (by simp only [List.length_append, List.length_singleton]; omega) (by
      intro k rel hk
      have := hf (k + 1) rel (by simpa using hk)
      simpa [Disp.run] using this)
    simpa [Disp.run] using this

/-- The notifications of each stream are numbered 0, 1, 2, …, if no stream is registered under the full name of a stream that
has been used. -/
theorem C83_consecutive_partial (s : Settings) (es : List Ev) (stream : List Comp) (hl : es.length < 2 ^ 64)
    (hf : FreshStreams es (logOf s es)) :
    notifications stream (logOf s es) =
      (List.range (notifications stream (logOf s es)).length).map
        (fun n => stream ++ [Spec.convComp s.encodeMarker .sequence n]) := by
  have := stream_run (s := s) stream es [] {} rfl rfl (by simpa using hl) (by
    intro k rel hk
    rw [List.nil_append]
    exact hf k rel hk)
  simpa [logOf] using this

/-- The hypothesis holds in particular when all streams are registered before anything is posted. -/
theorem C83_register_first (s : Settings) (regs rest : List Ev) (h1 : ∀ e ∈ regs, ∀ r b, e ≠ .post r b)
    (h2 : ∀ e ∈ rest, ∀ r, e ≠ .addHandler r .stream) : FreshStreams (regs ++ rest) (logOf s (regs ++ rest)) := by
  intro k rel hk
  have hlt : k < regs.length := by
    apply Classical.byContradiction
    intro hc
    rw [List.getElem?_append_right (by omega)] at hk
    exact h2 _ (List.mem_of_getElem? hk) rel rfl
  unfold notifications
  rw [List.filterMap_eq_nil_iff]
  intro x hx
  have hx1 : x.1 ∈ regs := by
    have h3 : x.1 ∈ ((logOf s (regs ++ rest)).take k).map Prod.fst := List.mem_map.2 ⟨x, hx, rfl⟩
    unfold logOf at h3
    rw [List.map_take] at h3
    have hpre : (List.map Prod.fst ((regs ++ rest).zip (Disp.run s (regs ++ rest) {}).1)) <+: regs ++ rest := by
      generalize regs ++ rest = a
      generalize (Disp.run s a {}).1 = b
      induction a generalizing b with
      | nil => simp
      | cons y ys ih =>
        cases b with
        | nil => simp
        | cons z zs =>
          simp only [List.zip_cons_cons, List.map_cons]
          exact (List.cons_prefix_cons).2 ⟨rfl, ih zs⟩
    have h4 := List.mem_of_mem_take h3
    obtain ⟨j, hj⟩ := List.getElem?_of_mem h3
    rw [List.getElem?_take] at hj
    split at hj
    · have hjj : (regs ++ rest)[j]? = some x.1 := by
        obtain ⟨t, ht⟩ := hpre
        rw [← ht, List.getElem?_append_left (List.getElem?_eq_some_iff.1 hj).1]
        exact hj
      rw [List.getElem?_append_left (by omega)] at hjj
      exact List.mem_of_getElem? hjj
    · cases hj
  obtain ⟨e, os⟩ := x
  cases e with
  | post r b => exact absurd rfl (h1 _ hx1 r b)
  | _ => rfl

/-- Two streams, `/b` and `/a/b`; the second is registered after the first was used under the top-level prefix `/a`. -/
def reusedNumber : List Ev :=
  [.addHandler [⟨8, [98]⟩] .stream, .addTop [⟨8, [97]⟩], .post [⟨8, [98]⟩] [1], .removeTop [⟨8, [97]⟩],
   .addHandler [⟨8, [97]⟩, ⟨8, [98]⟩] .stream, .addTop [⟨8, [97]⟩], .post [⟨8, [98]⟩] [2]]

theorem reusedNumber_names : notifications [⟨8, [97]⟩, ⟨8, [98]⟩] (logOf ⟨false, true, true⟩ reusedNumber) =
    [[⟨8, [97]⟩, ⟨8, [98]⟩, ⟨58, [0]⟩], [⟨8, [97]⟩, ⟨8, [98]⟩, ⟨58, [0]⟩]] := by
  rfl

/-- Registering a stream can reset the numbers of another one, and two notifications get the same name. -/
theorem C83_counterexample : ¬ C83_claim := by
  intro h
  have := h ⟨false, true, true⟩ reusedNumber [⟨8, [97]⟩, ⟨8, [98]⟩] rfl (by decide)
  rw [reusedNumber_names] at this
  exact absurd this (by decide)

/-! Examples. -/

/-- A run with a command, a dataset and a stream. -/
def exRun : List Ev :=
  [.addHandler [⟨8, [108]⟩] .dataset, .addHandler [⟨8, [101]⟩] .stream, .addHandler [⟨8, [101]⟩, ⟨8, [102]⟩] .dataset,
   .addTop [⟨8, [97]⟩], .addTop [⟨8, [97]⟩, ⟨8, [98]⟩], .addHandler [⟨8, [109]⟩] .dataset,
   .interest [⟨8, [97]⟩, ⟨8, [108]⟩] none, .accept 0 [.append [1, 2], .finish] 7,
   .interest [⟨8, [97]⟩, ⟨8, [108]⟩] none, .reject 1 true,
   .post [⟨8, [101]⟩] [9], .post [⟨8, [101]⟩] [10], .interest [⟨8, [97]⟩, ⟨8, [101]⟩] (some 2)]

example : Consistent ⟨false, true, true⟩ := rfl

example : (Disp.run ⟨false, true, true⟩ exRun {}).1 =
    [[], [], [.outOfRange], [], [.outOfRange], [.domainError],
     [.authorize [⟨8, [97]⟩] [⟨8, [97]⟩, ⟨8, [108]⟩] none],
     [.serve [⟨8, [97]⟩] [⟨8, [97]⟩, ⟨8, [108]⟩],
      .store ⟨[⟨8, [97]⟩, ⟨8, [108]⟩, ⟨54, [7]⟩, ⟨50, [0]⟩], .bytes [1, 2], false, some ⟨50, [0]⟩⟩,
      .put ⟨[⟨8, [97]⟩, ⟨8, [108]⟩, ⟨54, [7]⟩, ⟨50, [0]⟩], .bytes [1, 2], false, some ⟨50, [0]⟩⟩],
     [.authorize [⟨8, [97]⟩] [⟨8, [97]⟩, ⟨8, [108]⟩] none],
     [.put ⟨[⟨8, [97]⟩, ⟨8, [108]⟩], .resp resp403, false, none⟩],
     [.store ⟨[⟨8, [97]⟩, ⟨8, [101]⟩, ⟨58, [0]⟩], .bytes [9], false, none⟩,
      .put ⟨[⟨8, [97]⟩, ⟨8, [101]⟩, ⟨58, [0]⟩], .bytes [9], false, none⟩],
     [.store ⟨[⟨8, [97]⟩, ⟨8, [101]⟩, ⟨58, [1]⟩], .bytes [10], false, none⟩,
      .put ⟨[⟨8, [97]⟩, ⟨8, [101]⟩, ⟨58, [1]⟩], .bytes [10], false, none⟩],
     [.put ⟨[⟨8, [97]⟩, ⟨8, [101]⟩, ⟨58, [1]⟩], .bytes [10], false, none⟩]] := by
  rfl

/-- A command that is accepted, handled and answered. -/
def exCommand : List Ev :=
  [.addHandler [Command.csErase.module, Command.csErase.verb] (.command .csErase), .addTop [⟨8, [97]⟩],
   .interest [⟨8, [97]⟩, Command.csErase.module, Command.csErase.verb, ⟨8, [104, 5, 7, 3, 8, 1, 120]⟩] none,
   .accept 0 [] 0, .done 0 ⟨200, [79, 75], none⟩]

example : (Disp.run ⟨false, true, true⟩ exCommand {}).1 =
    [[], [],
     [.authorize [⟨8, [97]⟩] [⟨8, [97]⟩, Command.csErase.module, Command.csErase.verb, ⟨8, [104, 5, 7, 3, 8, 1, 120]⟩]
       (some { name := some [⟨8, [120]⟩] })],
     [.handle [⟨8, [97]⟩] [⟨8, [97]⟩, Command.csErase.module, Command.csErase.verb, ⟨8, [104, 5, 7, 3, 8, 1, 120]⟩]
       { name := some [⟨8, [120]⟩] }],
     [.put ⟨[⟨8, [97]⟩, Command.csErase.module, Command.csErase.verb, ⟨8, [104, 5, 7, 3, 8, 1, 120]⟩],
       .resp ⟨200, [79, 75], none⟩, false, none⟩]] := by
  rfl

end Ndn.Mgmt
