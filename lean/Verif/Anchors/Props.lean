import Verif.Anchors.Step
/-
Property theorems: C61 (a certificate is a trust anchor exactly while some group lists it).
-/
namespace Ndn.Anchors
open Ndn.Name Ndn.Name.Spec Ndn.Cert

theorem trusted_iff {s : St} (hs : CSorted s.anchors) (c : Crt) : Spec.Trusted s c ↔ ∃ e ∈ s.anchors, e.cert = c := by
  unfold Spec.Trusted St.lookupInterest
  constructor
  · intro h
    obtain ⟨e, he, h1, _⟩ := scan_some h
    exact ⟨e, (lowerBound_sublist _ _).subset he, h1⟩
  · rintro ⟨e, he, rfl⟩
    have hm := mem_lowerBound he (List.prefix_refl _)
    obtain ⟨d, hd, _⟩ := scan_first (m := fun d => d = e.cert) (hs.sublist (lowerBound_sublist _ _)) (lowerBound_ge hs e.cert.name) hm (List.prefix_refl _) (by simp)
    obtain ⟨_, _, _, _, h4⟩ := scan_some hd
    rw [hd]
    simpa using h4

/-- Every trusted certificate was given to the container, and some group lists its name. -/
theorem C61_sound (ops : List Op) (hc : Spec.Clocked ops) (hr : Spec.Regular (run St.init ops).1) (c : Crt) (h : Spec.Trusted (run St.init ops).2 c) :
    Spec.Given ops c ∧ ∃ id, Spec.Lists ops id c.name := by
  obtain ⟨h1, h2, _⟩ := run_sim ops hc hr
  obtain ⟨e, he, rfl⟩ := (trusted_iff h1.inv.sorted c).1 h
  obtain ⟨d, hd, rfl⟩ := h2 e he
  exact ⟨hd, h1.listed ⟨_, he, rfl⟩⟩

/-- A name has a trusted certificate exactly while some group lists it, provided that no other group lists it when it is withdrawn from one.
Missing: names listed by several groups, see `C61_claim`. -/
theorem C61_exact_partial (ops : List Op) (hc : Spec.Clocked ops) (hr : Spec.Regular (run St.init ops).1) (n : List Comp) (hx : Spec.Exclusive ops n) :
    (∃ c, c.name = n ∧ Spec.Trusted (run St.init ops).2 c) ↔ ∃ id, Spec.Lists ops id n := by
  constructor
  · rintro ⟨c, rfl, h⟩
    exact (C61_sound ops hc hr c h).2
  · intro h
    obtain ⟨h1, _, h3⟩ := run_sim ops hc hr
    obtain ⟨e, he, h⟩ := h3 n hx h
    exact ⟨e.cert, h, (trusted_iff h1.inv.sorted _).2 ⟨e, he, rfl⟩⟩

/-- No two trusted certificates have the same name. -/
theorem C61_unique (ops : List Op) (hc : Spec.Clocked ops) (hr : Spec.Regular (run St.init ops).1) (c d : Crt) (h : Spec.Trusted (run St.init ops).2 c)
    (h' : Spec.Trusted (run St.init ops).2 d) (e : c.name = d.name) : c = d := by
  obtain ⟨h1, _, _⟩ := run_sim ops hc hr
  obtain ⟨x, hx, rfl⟩ := (trusted_iff h1.inv.sorted c).1 h
  obtain ⟨y, hy, rfl⟩ := (trusted_iff h1.inv.sorted d).1 h'
  rw [name_inj h1.inv.sorted hx hy e]

/-- `find` returns the first trusted certificate, in the canonical order of names, that has the prefix (and satisfies the Interest). -/
theorem C61_find (ops : List Op) (hc : Spec.Clocked ops) (hr : Spec.Regular (run St.init ops).1) (n : List Comp) (m : Crt → Bool) :
    (∀ c, (run St.init ops).2.lookupInterest n m = some c → Spec.Trusted (run St.init ops).2 c ∧ n <+: c.name ∧ m c = true ∧
      ∀ d, Spec.Trusted (run St.init ops).2 d → n <+: d.name → m d = true → ¬ NameLt d.name c.name) ∧
    ((run St.init ops).2.lookupInterest n m = none → ∀ d, Spec.Trusted (run St.init ops).2 d → n <+: d.name → m d = false) ∧
    (run St.init ops).2.lookup n = (run St.init ops).2.lookupInterest n (fun _ => true) := by
  obtain ⟨h1, _, _⟩ := run_sim ops hc hr
  have hs := h1.inv.sorted
  generalize (run St.init ops).2 = s at *
  refine ⟨fun c h => ?_, fun h d hd hp => ?_, ?_⟩
  · obtain ⟨e, he, rfl, hp, hm⟩ := scan_some h
    refine ⟨(trusted_iff hs _).2 ⟨e, (lowerBound_sublist _ _).subset he, rfl⟩, hp, hm, fun d hd hp' hm' => ?_⟩
    obtain ⟨x, hx, rfl⟩ := (trusted_iff hs d).1 hd
    obtain ⟨c', h', h''⟩ := scan_first (m := m) (hs.sublist (lowerBound_sublist _ _)) (lowerBound_ge hs n) (mem_lowerBound hx hp') hp' hm'
    have : scan n m (lowerBound s.anchors n) = some e.cert := h
    rw [h'] at this
    cases this
    exact h''
  · cases hm : m d with
    | false => rfl
    | true =>
      obtain ⟨x, hx, rfl⟩ := (trusted_iff hs d).1 hd
      obtain ⟨c', h', _⟩ := scan_first (m := m) (hs.sublist (lowerBound_sublist _ _)) (lowerBound_ge hs n) (mem_lowerBound hx hp) hp hm
      have : scan n m (lowerBound s.anchors n) = none := h
      rw [h'] at this
      cases this
  · unfold St.lookup St.lookupInterest
    cases lowerBound s.anchors n with
    | nil => rfl
    | cons e l =>
      simp only [scan]
      split
      · simp
      · rfl

/-- `getGroup` finds a group exactly if it was created, and its size is the number of names it lists. -/
theorem C61_groups (ops : List Op) (hc : Spec.Clocked ops) (hr : Spec.Regular (run St.init ops).1) (id : Bytes) :
    match (run St.init ops).2.group id with
    | none => Spec.view id ops = .absent
    | some g => Spec.view id ops ≠ .absent ∧ g.names.Nodup ∧ ∀ n, n ∈ g.names ↔ Spec.Lists ops id n := by
  obtain ⟨h1, _, _⟩ := run_sim ops hc hr
  have := h1.rep id
  cases hg : (run St.init ops).2.group id with
  | none => rw [hg] at this; exact this.none
  | some g =>
    rw [hg] at this
    refine ⟨fun e => ?_, h1.inv.names g (group_mem hg).1, this.names⟩
    rw [e] at this
    exact this

/-- After `find`, what a group lists is what its path contained at a time less than its period ago. -/
theorem C61_fresh (ops : List Op) (now : Int) (fs : Files) (order : List Bytes) (id : Bytes) (path : Bytes) (isDir : Bool) (period loaded : Int) (names : List Comp → Prop)
    (hr : Spec.Regular (run St.init (ops ++ [.find now fs order])).1) (hc : Spec.Clocked (ops ++ [.find now fs order]))
    (h : Spec.view id (ops ++ [.find now fs order]) = .dynamic path isDir period loaded names) :
    now < loaded + period ∧ ∃ op ∈ ops ++ [.find now fs order], ∃ fs', names = Spec.has fs' path isDir ∧
      (op = .insertPath loaded fs' id path period isDir ∨ op = .refresh loaded fs' id ∨ ∃ order, op = .find loaded fs' order) := by
  have hp : 0 < period := by
    obtain ⟨h1, _, _⟩ := run_sim _ hc hr
    have := h1.rep id
    rw [h] at this
    cases hg : (run St.init (ops ++ [.find now fs order])).2.group id with
    | none => rw [hg] at this; exact this.elim
    | some g => rw [hg] at this; exact this.2.1
  clear hr hc
  have key : ∀ ops : List Op, ∀ path isDir period loaded names, Spec.view id ops = .dynamic path isDir period loaded names → ∃ op ∈ ops, ∃ fs', names = Spec.has fs' path isDir ∧
      (op = .insertPath loaded fs' id path period isDir ∨ op = .refresh loaded fs' id ∨ ∃ order, op = .find loaded fs' order) := by
    intro ops
    refine Replay.snocInd ops (motive := fun ops => ∀ path isDir period loaded names, Spec.view id ops = .dynamic path isDir period loaded names → ∃ op ∈ ops, ∃ fs', names = Spec.has fs' path isDir ∧
      (op = .insertPath loaded fs' id path period isDir ∨ op = .refresh loaded fs' id ∨ ∃ order, op = .find loaded fs' order)) ?_ ?_
    · intro path isDir period loaded names h; simp [Spec.view] at h
    · intro ops op ih path isDir period loaded names h
      rw [view_snoc] at h
      have old : Spec.view id ops = .dynamic path isDir period loaded names → ∃ op' ∈ ops ++ [op], ∃ fs', names = Spec.has fs' path isDir ∧
          (op' = .insertPath loaded fs' id path period isDir ∨ op' = .refresh loaded fs' id ∨ ∃ order, op' = .find loaded fs' order) := by
        intro e
        obtain ⟨x, hx, h⟩ := ih path isDir period loaded names e
        exact ⟨x, List.mem_append.2 (.inl hx), h⟩
      cases hv : Spec.view id ops with
      | absent =>
        rw [hv] at h
        cases op with
        | insert i c => simp only [Spec.next] at h; split at h <;> simp at h
        | insertPath now fs i p q d =>
          simp only [Spec.next] at h
          split at h
          · rename_i e
            cases h
            exact ⟨_, List.mem_append.2 (.inr (List.mem_singleton.2 rfl)), fs, rfl, .inl (by rw [e.1])⟩
          · simp at h
        | remove i m => simp [Spec.next] at h
        | refresh now fs i => simp only [Spec.next] at h; split at h <;> simp [Spec.reread] at h
        | find now fs order => simp [Spec.next, Spec.reread] at h
        | clear => simp [Spec.next] at h
      | static ns =>
        rw [hv] at h
        cases op with
        | insert i c => simp only [Spec.next] at h; split at h <;> simp at h
        | insertPath now fs i p q d => simp [Spec.next] at h
        | remove i m => simp only [Spec.next] at h; split at h <;> simp at h
        | refresh now fs i => simp only [Spec.next] at h; split at h <;> simp [Spec.reread] at h
        | find now fs order => simp [Spec.next, Spec.reread] at h
        | clear => simp [Spec.next] at h
      | dynamic p d q t ns =>
        rw [hv] at h
        cases op with
        | insert i c => exact old (hv.trans h)
        | insertPath now fs i p' q' d' => exact old (hv.trans h)
        | remove i m => exact old (hv.trans h)
        | refresh now fs i =>
          simp only [Spec.next] at h
          split at h
          · rename_i e
            simp only [Spec.reread] at h
            split at h
            · exact old (hv.trans h)
            · cases h
              exact ⟨_, List.mem_append.2 (.inr (List.mem_singleton.2 rfl)), fs, rfl, .inr (.inl (by rw [e]))⟩
          · exact old (hv.trans h)
        | find now fs order =>
          simp only [Spec.next, Spec.reread] at h
          split at h
          · exact old (hv.trans h)
          · cases h
            exact ⟨_, List.mem_append.2 (.inr (List.mem_singleton.2 rfl)), fs, rfl, .inr (.inr ⟨order, rfl⟩)⟩
        | clear => simp [Spec.next] at h
  refine ⟨?_, key _ _ _ _ _ _ h⟩
  rw [view_snoc] at h
  cases hv : Spec.view id ops with
  | absent => rw [hv] at h; simp [Spec.next, Spec.reread] at h
  | static ns => rw [hv] at h; simp [Spec.next, Spec.reread] at h
  | dynamic p d q t ns =>
    rw [hv] at h
    simp only [Spec.next, Spec.reread] at h
    split at h
    · rename_i ht; cases h; exact ht
    · cases h; omega

/-- A call that is refused changes nothing: inserting into a group that reads a path, creating a group that exists, a period that is not positive,
removing from a group that does not exist or reads a path. -/
theorem C61_refused (s : St) (op : Op) (h : (step s op).1 = .refused) : (step s op).2 = s := by
  cases op with
  | insert id c =>
    simp only [step, St.insert] at h ⊢
    split
    · rename_i e; rw [e] at h; simp at h
    · rename_i g e
      rw [e] at h
      simp only at h
      split
      · rfl
      · rename_i hk; rw [hk] at h; simp only at h; split at h <;> simp at h
  | insertPath now fs id path period isDir =>
    simp only [step, St.insertPath] at h ⊢
    split
    · rfl
    · rename_i h1
      rw [if_neg h1] at h
      split
      · rfl
      · rename_i h2
        rw [if_neg h2] at h
        exfalso
        generalize hr : Group.refresh now fs ⟨id, .dynamic path isDir period 0, []⟩ s.anchors = r at h
        obtain ⟨o, g, l⟩ := r
        cases o with
        | refused =>
          unfold Group.refresh at hr
          simp only at hr
          split at hr
          · simp at hr
          · split at hr
            · simp at hr
            · split at hr <;> simp at hr
        | _ => simp at h
  | remove id m =>
    simp only [step, St.removeCert] at h ⊢
    split
    · rfl
    · rename_i g e
      rw [e] at h
      simp only at h
      split
      · rfl
      · rename_i hk; rw [hk] at h; simp at h
  | refresh now fs id =>
    simp only [step, St.refreshGroup] at h ⊢
    split
    · rfl
    · rename_i g e
      rw [e] at h
      simp only at h
      unfold Group.refresh at h
      split at h
      · simp at h
      · split at h
        · simp at h
        · split at h
          · simp at h
          · simp only at h; split at h <;> simp at h
  | find now fs order => exact absurd h (refreshAll_out now fs _ s)
  | clear => simp [step] at h

/-! ### Defined behaviour -/

/-- No period is longer than this. -/
def Periods (s : St) (L : Int) : Prop := ∀ g ∈ s.groups, ∀ p d q e, g.kind = .dynamic p d q e → q ≤ L

theorem refresh_kind {now : Int} {fs : Files} {g : Group} {l : List Entry} {L : Int} (hg : ∀ p d q e, g.kind = .dynamic p d q e → q ≤ L) (hn : now + L ≤ 2 ^ 63 - 1) :
    (g.refresh now fs l).1 ≠ .ub ∧ ∀ p d q e, (g.refresh now fs l).2.1.kind = .dynamic p d q e → q ≤ L := by
  unfold Group.refresh
  split
  · exact ⟨by simp, fun p d q e h => hg p d q e h⟩
  · rename_i path isDir period expire hk
    have hp := hg _ _ _ _ hk
    split
    · exact ⟨by simp, fun p d q e h => hg p d q e h⟩
    · rw [if_neg (by omega)]
      simp only
      split
      · refine ⟨by simp, fun p d q e h => ?_⟩
        simp only [Kind.dynamic.injEq] at h
        omega
      · refine ⟨by simp, fun p d q e h => ?_⟩
        simp only [Kind.dynamic.injEq] at h
        omega

theorem periods_set {s : St} {L : Int} (hs : Periods s L) {g : Group} (hg : ∀ p d q e, g.kind = .dynamic p d q e → q ≤ L) (l : List Entry) : Periods ⟨s.setGroup g, l⟩ L := by
  intro x hx
  rcases set_mem hx with rfl | ⟨hx, _⟩
  · exact hg
  · exact hs x hx

theorem refreshGroup_defined {now : Int} {fs : Files} {s : St} {L : Int} (hs : Periods s L) (hn : now + L ≤ 2 ^ 63 - 1) (id : Bytes) :
    (s.refreshGroup now fs id).1 ≠ .ub ∧ Periods (s.refreshGroup now fs id).2 L := by
  unfold St.refreshGroup
  cases hg : s.group id with
  | none => exact ⟨by simp, hs⟩
  | some g =>
    have := refresh_kind (now := now) (fs := fs) (l := s.anchors) (hs g (group_mem hg).1) hn
    exact ⟨this.1, periods_set hs this.2 _⟩

theorem refreshAll_defined {now : Int} {fs : Files} {L : Int} (hn : now + L ≤ 2 ^ 63 - 1) (ids : List Bytes) : ∀ s : St, Periods s L →
    (s.refreshAll now fs ids).1 ≠ .ub ∧ Periods (s.refreshAll now fs ids).2 L := by
  induction ids with
  | nil => intro s hs; exact ⟨by simp [St.refreshAll], hs⟩
  | cons id ids ih =>
    intro s hs
    have := refreshGroup_defined (fs := fs) hs hn id
    unfold St.refreshAll
    simp only
    split
    · exact this
    · exact ih _ this.2

theorem step_defined {s : St} {L : Int} (hs : Periods s L) {op : Op} (ht : ∀ t, Spec.time op = some t → t + L ≤ 2 ^ 63 - 1)
    (hp : ∀ now fs id path period isDir, op = .insertPath now fs id path period isDir → period ≤ L) : (step s op).1 ≠ .ub ∧ Periods (step s op).2 L := by
  cases op with
  | insert id c =>
    simp only [step, St.insert]
    split
    · refine ⟨by simp, fun x hx => ?_⟩
      rcases List.mem_append.1 hx with h | h
      · exact hs x h
      · simp at h; subst h; simp
    · split
      · exact ⟨by simp, hs⟩
      · split
        · exact ⟨by simp, hs⟩
        · exact ⟨by simp, periods_set hs (by simp) _⟩
  | insertPath now fs id path period isDir =>
    simp only [step, St.insertPath]
    split
    · exact ⟨by simp, hs⟩
    · split
      · exact ⟨by simp, hs⟩
      · have := refresh_kind (now := now) (fs := fs) (l := s.anchors) (g := ⟨id, .dynamic path isDir period 0, []⟩) (L := L)
          (by intro p d q e h; simp only [Kind.dynamic.injEq] at h; have := hp _ _ _ _ _ _ rfl; omega) (ht now rfl)
        split
        · refine ⟨by simp, fun x hx => ?_⟩
          rcases List.mem_append.1 hx with h | h
          · exact hs x h
          · simp at h; subst h; exact this.2
        · exact ⟨this.1, hs⟩
  | remove id m =>
    simp only [step, St.removeCert]
    split
    · exact ⟨by simp, hs⟩
    · split
      · exact ⟨by simp, hs⟩
      · exact ⟨by simp, periods_set hs (by simp) _⟩
  | refresh now fs id => exact refreshGroup_defined hs (ht now rfl) id
  | find now fs order => exact refreshAll_defined (ht now rfl) _ s hs
  | clear => exact ⟨by simp [step], fun g hg => by simp [step, St.init] at hg⟩

/-- Behaviour is defined if clock and periods together stay below 64 bits. Missing: other periods, see `C61_defined_claim`. -/
theorem C61_defined_partial (ops : List Op) (h : Spec.InRange ops) : Out.ub ∉ (run St.init ops).1 := by
  obtain ⟨L, h1, h2⟩ := h
  have key : ∀ (ops : List Op) (s : St), Periods s L → (∀ op ∈ ops, ∀ t, Spec.time op = some t → t + L ≤ 2 ^ 63 - 1) →
      (∀ now fs id path period isDir, Op.insertPath now fs id path period isDir ∈ ops → period ≤ L) → Out.ub ∉ (run s ops).1 := by
    intro ops
    induction ops with
    | nil => intro s _ _ _; simp [run]
    | cons op ops ih =>
      intro s hs h1 h2
      have := step_defined hs (h1 op (by simp)) (fun now fs id path period isDir e => h2 now fs id path period isDir (by rw [e]; simp))
      simp only [run, List.mem_cons, not_or]
      exact ⟨fun e => this.1 e.symm, ih _ this.2 (fun o ho => h1 o (by simp [ho])) (fun now fs id path period isDir e => h2 now fs id path period isDir (by simp [e]))⟩
  exact key ops St.init (fun g hg => by simp [St.init] at hg) h1 h2

/-- The claim: creating a group with a positive period is defined. -/
def C61_defined_claim : Prop := ∀ (now : Int) (fs : Files) (id path : Bytes) (period : Int) (isDir : Bool), 0 ≤ now → now ≤ 2 ^ 62 → 0 < period → period ≤ 2 ^ 63 - 1 →
  Out.ub ∉ (run St.init [.insertPath now fs id path period isDir]).1

/-- The period that a configuration without `refresh` stands for (`nanoseconds::max()`, see `C59`) overflows at once. -/
theorem C61_defined_counterexample : ¬ C61_defined_claim := by
  intro h
  exact h 1 (fun _ _ => ⟨[], false⟩) [1] [2] (2 ^ 63 - 1) false (by decide) (by decide) (by decide) (by decide) (by decide)

/-! ### Examples -/

def ca : Crt := ⟨[⟨8, [97]⟩], 0, 1⟩
def ca' : Crt := ⟨[⟨8, [97]⟩], 0, 2⟩
def cb : Crt := ⟨[⟨8, [98]⟩], 0, 3⟩

/-- A file system with these certificates at every path. -/
def files (cs : List Crt) : Files := fun _ _ => ⟨cs, false⟩

/-- A static group with one certificate, and a group for a path that first contains `/b` and then nothing. -/
def exOps : List Op := [.insert [1] ca, .insertPath 0 (files [cb]) [2] [9] 10 true, .find 5 (files []) [], .find 10 (files []) []]

example : Spec.Clocked exOps ∧ Spec.Regular (run St.init exOps).1 ∧ Spec.InRange exOps ∧
    Spec.Trusted (run St.init exOps).2 ca ∧ ¬ Spec.Trusted (run St.init exOps).2 cb ∧ Spec.Trusted (run St.init (exOps.take 3)).2 cb := by
  refine ⟨?_, ?_, ⟨10, ?_, ?_⟩, ?_, ?_, ?_⟩
  · intro op hop t ht
    simp [exOps] at hop
    rcases hop with rfl | rfl | rfl | rfl <;> simp [Spec.time] at ht <;> omega
  · unfold Spec.Regular; decide
  · intro op hop t ht
    simp [exOps] at hop
    rcases hop with rfl | rfl | rfl | rfl <;> simp [Spec.time] at ht <;> omega
  · intro now fs id path period isDir h
    simp [exOps] at h
    omega
  · unfold Spec.Trusted; decide
  · unfold Spec.Trusted; decide
  · unfold Spec.Trusted; decide

theorem ex_views (id : Bytes) : (∀ n, ¬ Spec.Lists [] id n) ∧ ¬ Spec.Lists (exOps.take 1) id cb.name ∧
    (Spec.Lists (exOps.take 2) id cb.name → Spec.Lists (exOps.take 3) id cb.name) ∧ ¬ Spec.Lists exOps id cb.name := by
  by_cases h1 : [1] = id
  · subst h1
    simp [Spec.Lists, Spec.view, Spec.View.names, exOps, Spec.next, Spec.reread, cb, ca]
  · by_cases h2 : [2] = id
    · subst h2
      simp [Spec.Lists, Spec.view, Spec.View.names, exOps, Spec.next, Spec.reread, cb, Spec.has, files]
    · simp [Spec.Lists, Spec.view, Spec.View.names, exOps, Spec.next, Spec.reread, h1, h2]

/-- `/b` is withdrawn while no other group lists it. -/
example : Spec.Exclusive exOps cb.name := by
  intro before op after h hw id hl
  rcases hw with ⟨i, rfl⟩ | ⟨i, h1, h2⟩
  · have : Op.remove i cb.name ∈ exOps := by rw [h]; simp
    simp [exOps] at this
  · match before, h with
    | [], h => exact (ex_views i).1 _ h1
    | [a], h =>
      refine (ex_views i).2.1 ?_
      have : exOps.take 1 = [a] := by rw [h]; rfl
      rw [this]; exact h1
    | [a, b], h =>
      refine h2 ?_
      have e2 : exOps.take 2 = [a, b] := by rw [h]; rfl
      have e3 : exOps.take 3 = [a, b] ++ [op] := by rw [h]; rfl
      rw [← e3]
      exact (ex_views i).2.2.1 (by rw [e2]; exact h1)
    | [a, b, c], h =>
      have : after = [] := by
        have := congrArg List.length h
        simp [exOps] at this
        exact this
      subst this
      exact (ex_views id).2.2.2 (by rw [h]; exact hl)
    | a :: b :: c :: d :: l, h =>
      have := congrArg List.length h
      simp [exOps] at this

/-! ### Where the claim fails -/

/-- The claim: a name has a trusted certificate exactly while some group lists it. -/
def C61_claim : Prop := ∀ (ops : List Op), Spec.Clocked ops → Spec.Regular (run St.init ops).1 → ∀ n,
  (∃ c, c.name = n ∧ Spec.Trusted (run St.init ops).2 c) ↔ ∃ id, Spec.Lists ops id n

/-- A static group and a path both list `/a`; once the file is gone from the path, the certificate is not trusted any more. -/
theorem C61_counterexample : ¬ C61_claim := by
  intro h
  obtain ⟨c, hn, hc⟩ := (h [.insert [1] ca, .insertPath 0 (files [ca]) [2] [9] 10 true, .find 10 (files []) []] (by
    intro op hop t ht
    simp at hop
    rcases hop with rfl | rfl | rfl <;> simp [Spec.time] at ht <;> omega) (by unfold Spec.Regular; decide) ca.name).2
    ⟨[1], rfl⟩
  obtain ⟨e, he, _⟩ := scan_some hc
  have : (run St.init [.insert [1] ca, .insertPath 0 (files [ca]) [2] [9] 10 true, .find 10 (files []) []]).2.anchors = [] := by decide
  rw [this] at he
  simp [lowerBound] at he

/-- The claim: removing a certificate from a group has no effect on the other groups' certificates. -/
def C61_remove_claim : Prop := ∀ (ops : List Op) (id : Bytes) (n : List Comp), Spec.Clocked ops → Spec.Regular (run St.init ops).1 → ¬ Spec.Lists ops id n →
  ∀ c, Spec.Trusted (run St.init ops).2 c → Spec.Trusted (run St.init (ops ++ [.remove id n])).2 c

/-- Removing `/a` from a group that does not contain it withdraws the certificate of another. -/
theorem C61_remove_counterexample : ¬ C61_remove_claim := by
  intro h
  have := h [.insert [1] ca, .insert [2] cb] [2] ca.name (by
    intro op hop t ht
    simp at hop
    rcases hop with rfl | rfl <;> simp [Spec.time] at ht) (by unfold Spec.Regular; decide) (by simp [Spec.Lists, Spec.view, Spec.next, Spec.View.names, ca, cb])
    ca (by unfold Spec.Trusted; decide)
  revert this
  unfold Spec.Trusted
  decide

/-- The claim: inserting a certificate makes it (or another of its name) trusted. -/
def C61_insert_claim : Prop := ∀ (ops : List Op) (id : Bytes) (c : Crt), Spec.Clocked ops → Spec.Regular (run St.init (ops ++ [.insert id c])).1 →
  (∀ p d q t ns, Spec.view id ops ≠ .dynamic p d q t ns) → ∃ d, d.name = c.name ∧ Spec.Trusted (run St.init (ops ++ [.insert id c])).2 d

/-- A certificate lost in this way cannot be inserted again: its group already lists it. -/
theorem C61_insert_counterexample : ¬ C61_insert_claim := by
  intro h
  obtain ⟨d, _, hd⟩ := h [.insert [1] ca, .insert [2] cb, .remove [2] ca.name, .remove [2] cb.name] [1] ca (by
    intro op hop t ht
    simp at hop
    rcases hop with rfl | rfl | rfl | rfl <;> simp [Spec.time] at ht) (by unfold Spec.Regular; decide) (by intro p d q t ns; simp [Spec.view, Spec.next])
  obtain ⟨e, he, _⟩ := scan_some hd
  have : (run St.init ([.insert [1] ca, .insert [2] cb, .remove [2] ca.name, .remove [2] cb.name] ++ [.insert [1] ca])).2.anchors = [] := by decide
  rw [this] at he
  simp [lowerBound] at he

/-- The claim: every trusted certificate is listed by a group, also when reading files fails. -/
def C61_orphan_claim : Prop := ∀ (ops : List Op), Spec.Clocked ops → ∀ c, Spec.Trusted (run St.init ops).2 c → ∃ g ∈ (run St.init ops).2.groups, c.name ∈ g.names

/-- Creating a group fails after the first certificate was read: the certificate stays trusted, though there is no group. -/
theorem C61_orphan_counterexample : ¬ C61_orphan_claim := by
  intro h
  obtain ⟨g, hg, _⟩ := h [.insertPath 0 (fun _ _ => ⟨[ca], true⟩) [1] [9] 10 true] (by
    intro op hop t ht
    simp at hop
    subst hop
    simp [Spec.time] at ht
    omega) ca (by unfold Spec.Trusted; decide)
  have : (run St.init [.insertPath 0 (fun _ _ => ⟨[ca], true⟩) [1] [9] 10 true]).2.groups = [] := by rfl
  rw [this] at hg
  simp at hg

/-- As documented: a certificate that is replaced by another of the same name is not updated. -/
theorem C61_renewed : Spec.Trusted (run St.init [.insertPath 0 (files [ca]) [2] [9] 10 true, .find 10 (files [ca']) []]).2 ca ∧
    ¬ Spec.Trusted (run St.init [.insertPath 0 (files [ca]) [2] [9] 10 true, .find 10 (files [ca']) []]).2 ca' := by
  unfold Spec.Trusted
  decide

end Ndn.Anchors
