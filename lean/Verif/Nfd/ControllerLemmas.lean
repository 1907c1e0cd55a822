import Verif.Nfd.ControllerSpec
import Verif.Nfd.DatasetsProps
import Verif.Mgmt.CommandProps
namespace Ndn.Nfd
open Tlv Tlv.Spec Block Block.Spec Name Packet Packet.Spec Mgmt

theorem first_split {α : Type} {P : α → Prop} {a a' b b' : List α} {x x' : α} (h : a ++ x :: b = a' ++ x' :: b')
    (ha : ∀ y ∈ a, ¬ P y) (ha' : ∀ y ∈ a', ¬ P y) (hx : P x) (hx' : P x') : a = a' ∧ x = x' ∧ b = b' := by
  induction a generalizing a' with
  | nil =>
    cases a' with
    | nil => simp only [List.nil_append, List.cons.injEq] at h; exact ⟨rfl, h⟩
    | cons z zs =>
      simp only [List.nil_append, List.cons_append, List.cons.injEq] at h
      exact absurd (h.1 ▸ hx) (ha' z (List.mem_cons_self ..))
  | cons y ys ih =>
    cases a' with
    | nil =>
      simp only [List.nil_append, List.cons_append, List.cons.injEq] at h
      exact absurd (h.1 ▸ hx') (ha y (List.mem_cons_self ..))
    | cons z zs =>
      simp only [List.cons_append, List.cons.injEq] at h
      obtain ⟨h1, h2, h3⟩ := ih h.2 (fun w hw => ha w (List.mem_cons_of_mem _ hw)) (fun w hw => ha' w (List.mem_cons_of_mem _ hw))
      exact ⟨by rw [h.1, h1], h2, h3⟩

theorem only_split {α : Type} {P : α → Prop} {a a' b b' : List α} {x x' : α} (h : a ++ x :: b = a' ++ x' :: b')
    (ha : ∀ y ∈ a, ¬ P y) (hb : ∀ y ∈ b, ¬ P y) (hx : P x') : a = a' ∧ x = x' ∧ b = b' := by
  induction a generalizing a' with
  | nil =>
    cases a' with
    | nil => simp only [List.nil_append, List.cons.injEq] at h; exact ⟨rfl, h⟩
    | cons z zs =>
      simp only [List.nil_append, List.cons_append, List.cons.injEq] at h
      exact absurd hx (hb x' (h.2 ▸ by simp))
  | cons y ys ih =>
    cases a' with
    | nil =>
      simp only [List.nil_append, List.cons_append, List.cons.injEq] at h
      exact absurd (h.1 ▸ hx) (ha y (List.mem_cons_self ..))
    | cons z zs =>
      simp only [List.cons_append, List.cons.injEq] at h
      obtain ⟨h1, h2, h3⟩ := ih h.2 (fun w hw => ha w (List.mem_cons_of_mem _ hw))
      exact ⟨by rw [h.1, h1], h2, h3⟩

/-- The event hands out number `i` to a command. -/
def Asks (i : Nat) (x : CEv × List COut) : Prop := ∃ n, .asked i n ∈ x.2

/-- The event hands out number `j` to a dataset. -/
def Fetches (j : Nat) (x : CEv × List COut) : Prop := ∃ n, .fetching j n ∈ x.2

/-- The phase of a command in terms of what happened since it was started. -/
def PhaseIs (i : Nat) (l2 : CLog) : Phase → Prop
  | .waiting => ∀ x ∈ l2, ¬ IsReply i x.1
  | .validating content => ∃ m1 m2, l2 = m1 ++ (.data i content, []) :: m2 ∧ (∀ x ∈ m1, ¬ IsReply i x.1) ∧
      ∀ x ∈ m2, ¬ IsVerdict i x.1
  | .over => ∃ m1 x m2, l2 = m1 ++ x :: m2 ∧ (∀ x ∈ m1, ¬ IsReply i x.1) ∧ IsReply i x.1 ∧
      (x.2 = [] → (∃ content, x.1 = .data i content) → ∃ y ∈ m2, IsVerdict i y.1)

def CmdIs (l : CLog) (i : Nat) : Option Cmd → Prop
  | none => ∀ x ∈ l, ¬ Asks i x
  | some c => ∃ l1 pfx p name l2, l = l1 ++ (.start c.command pfx p c.onSuccess c.onFailure, [.asked i name]) :: l2 ∧
      (∀ x ∈ l1, ¬ Asks i x) ∧ (∀ x ∈ l2, ¬ Asks i x) ∧ PhaseIs i l2 c.phase

def JobIs (l : CLog) (j : Nat) : Option Job → Prop
  | none => ∀ x ∈ l, ¬ Fetches j x
  | some c => ∃ l1 pfx name l2, l = l1 ++ (.fetch c.dataset pfx c.onSuccess c.onFailure, [.fetching j name]) :: l2 ∧
      (∀ x ∈ l1, ¬ Fetches j x) ∧ (∀ x ∈ l2, ¬ Fetches j x) ∧
      (c.running = true ↔ ¬ Gone l ∧ ∀ x ∈ l2, ¬ IsEnd j x.1)

structure CInv (l : CLog) (s : Ctl) : Prop where
  alive : s.alive = true ↔ ¬ Gone l
  cmd : ∀ i, CmdIs l i s.cmds[i]?
  job : ∀ j, JobIs l j s.jobs[j]?
  fetchers : ∀ j x, s.jobs[j]? = some x → x.running = true → j ∈ s.fetchers

theorem waiting_iff {l : CLog} {s : Ctl} (h : CInv l s) {i : Nat} {c : Command} {onS onF : Bool} :
    Waiting l i c onS onF ↔ s.cmds[i]? = some ⟨c, onS, onF, .waiting⟩ := by
  have hi := h.cmd i
  constructor
  · rintro ⟨l2, ⟨l1, pfx, p, name, rfl⟩, hn⟩
    cases hc : s.cmds[i]? with
    | none => rw [hc] at hi; exact absurd ⟨name, by simp⟩ (hi (.start c pfx p onS onF, [.asked i name]) (by simp))
    | some c' =>
      rw [hc] at hi
      obtain ⟨l1', pfx', p', name', l2', he, h1, h2, hp⟩ := hi
      obtain ⟨-, e2, e3⟩ := only_split he.symm h1 h2 ⟨name, by simp⟩
      subst e3
      obtain ⟨c1, s1, f1, ph⟩ := c'
      simp only [Prod.mk.injEq, CEv.start.injEq] at e2
      obtain ⟨⟨rfl, -, -, rfl, rfl⟩, -⟩ := e2
      cases ph with
      | waiting => rfl
      | validating ct =>
        obtain ⟨m1, m2, rfl, -, -⟩ := hp
        exact absurd (.inl ⟨ct, rfl⟩) (hn (.data i ct, []) (by simp))
      | over =>
        obtain ⟨m1, x, m2, rfl, -, hx, -⟩ := hp
        exact absurd hx (hn x (by simp))
  · intro hc
    rw [hc] at hi
    obtain ⟨l1', pfx', p', name', l2', he, h1, h2, hp⟩ := hi
    exact ⟨l2', ⟨l1', pfx', p', name', he⟩, hp⟩

theorem validating_iff {l : CLog} {s : Ctl} (h : CInv l s) {i : Nat} {c : Command} {onS onF : Bool} {content : Bytes} :
    Validating l i c onS onF content ↔ s.cmds[i]? = some ⟨c, onS, onF, .validating content⟩ := by
  have hi := h.cmd i
  constructor
  · rintro ⟨m1, m2, ⟨l1, pfx, p, name, rfl⟩, hr, hv⟩
    cases hc : s.cmds[i]? with
    | none => rw [hc] at hi; exact absurd ⟨name, by simp⟩ (hi (.start c pfx p onS onF, [.asked i name]) (by simp))
    | some c' =>
      rw [hc] at hi
      obtain ⟨l1', pfx', p', name', l2', he, h1, h2, hp⟩ := hi
      obtain ⟨-, e2, e3⟩ := only_split he.symm h1 h2 ⟨name, by simp⟩
      subst e3
      obtain ⟨c1, s1, f1, ph⟩ := c'
      simp only [Prod.mk.injEq, CEv.start.injEq] at e2
      obtain ⟨⟨rfl, -, -, rfl, rfl⟩, -⟩ := e2
      cases ph with
      | waiting => exact absurd (.inl ⟨content, rfl⟩) (hp (.data i content, []) (by simp))
      | validating ct =>
        obtain ⟨n1, n2, he2, hr2, hv2⟩ := hp
        obtain ⟨-, e, -⟩ := first_split (P := fun x => IsReply i x.1) he2 hr hr2 (.inl ⟨content, rfl⟩) (.inl ⟨ct, rfl⟩)
        simp only [Prod.mk.injEq, CEv.data.injEq, true_and, and_true] at e
        rw [e]
      | over =>
        obtain ⟨n1, x, n2, he2, hr2, hx, hx2⟩ := hp
        obtain ⟨-, e, e'⟩ := first_split (P := fun x => IsReply i x.1) he2 hr hr2 (.inl ⟨content, rfl⟩) hx
        subst e
        obtain ⟨y, hy, hy2⟩ := hx2 rfl ⟨content, rfl⟩
        exact absurd hy2 (hv y (e' ▸ hy))
  · intro hc
    rw [hc] at hi
    obtain ⟨l1', pfx', p', name', l2', he, h1, h2, m1, m2, rfl, hr, hv⟩ := hi
    exact ⟨m1, m2, ⟨l1', pfx', p', name', he⟩, hr, hv⟩

theorem fetching_iff {l : CLog} {s : Ctl} (h : CInv l s) {j : Nat} {d : Dataset} {onS onF : Bool} :
    Fetching l j d onS onF ↔ s.jobs[j]? = some ⟨d, onS, onF, true⟩ := by
  have hi := h.job j
  constructor
  · rintro ⟨hg, l1, pfx, name, l2, rfl, hn⟩
    cases hc : s.jobs[j]? with
    | none => rw [hc] at hi; exact absurd ⟨name, by simp⟩ (hi (.fetch d pfx onS onF, [.fetching j name]) (by simp))
    | some c' =>
      rw [hc] at hi
      obtain ⟨l1', pfx', name', l2', he, h1, h2, hp⟩ := hi
      obtain ⟨-, e2, e3⟩ := only_split he.symm h1 h2 ⟨name, by simp⟩
      subst e3
      obtain ⟨c1, s1, f1, ph⟩ := c'
      simp only [Prod.mk.injEq, CEv.fetch.injEq] at e2
      obtain ⟨⟨rfl, -, rfl, rfl⟩, -⟩ := e2
      have := hp.2 ⟨hg, hn⟩
      simp only at this
      rw [this]
  · intro hc
    rw [hc] at hi
    obtain ⟨l1', pfx', name', l2', he, h1, h2, hp⟩ := hi
    have := hp.1 rfl
    exact ⟨this.1, l1', pfx', name', l2', he, this.2⟩

/-! ### The steps -/

theorem gone_snoc (l : CLog) (x : CEv × List COut) : Gone (l ++ [x]) ↔ Gone l ∨ Gone [x] := by
  unfold Gone
  constructor
  · rintro ⟨y, hy, h⟩
    rcases List.mem_append.1 hy with hy | hy
    · exact .inl ⟨y, hy, h⟩
    · exact .inr ⟨y, hy, h⟩
  · rintro (⟨y, hy, h⟩ | ⟨y, hy, h⟩)
    · exact ⟨y, List.mem_append_left _ hy, h⟩
    · exact ⟨y, List.mem_append_right _ hy, h⟩

theorem phase_snoc {i : Nat} {l2 : CLog} {ph : Phase} {x : CEv × List COut} (h : PhaseIs i l2 ph) (h1 : ¬ IsReply i x.1 ∨ ph ≠ .waiting)
    (h2 : ¬ IsVerdict i x.1 ∨ ∀ ct, ph ≠ .validating ct) : PhaseIs i (l2 ++ [x]) ph := by
  cases ph with
  | waiting =>
    intro y hy
    rcases List.mem_append.1 hy with hy | hy
    · exact h y hy
    · rw [List.mem_singleton.1 hy]; exact h1.resolve_right (fun h => h rfl)
  | validating ct =>
    obtain ⟨m1, m2, rfl, hr, hv⟩ := h
    refine ⟨m1, m2 ++ [x], by simp, hr, fun y hy => ?_⟩
    rcases List.mem_append.1 hy with hy | hy
    · exact hv y hy
    · rw [List.mem_singleton.1 hy]; exact h2.resolve_right (fun h => h ct rfl)
  | over =>
    obtain ⟨m1, z, m2, rfl, hr, hz, hz2⟩ := h
    refine ⟨m1, z, m2 ++ [x], by simp, hr, hz, fun g1 g2 => ?_⟩
    obtain ⟨y, hy, hy2⟩ := hz2 g1 g2
    exact ⟨y, List.mem_append_left _ hy, hy2⟩

theorem cmd_snoc {l : CLog} {i : Nat} {o : Option Cmd} {x : CEv × List COut} (h : CmdIs l i o) (ha : ¬ Asks i x)
    (h1 : ¬ IsReply i x.1 ∨ ∀ c, o = some c → c.phase ≠ .waiting)
    (h2 : ¬ IsVerdict i x.1 ∨ ∀ c, o = some c → ∀ ct, c.phase ≠ .validating ct) : CmdIs (l ++ [x]) i o := by
  cases o with
  | none =>
    intro y hy
    rcases List.mem_append.1 hy with hy | hy
    · exact h y hy
    · rw [List.mem_singleton.1 hy]; exact ha
  | some c =>
    obtain ⟨l1, pfx, p, name, l2, rfl, g1, g2, hp⟩ := h
    refine ⟨l1, pfx, p, name, l2 ++ [x], by simp, g1, ?_, phase_snoc hp (h1.imp id fun h => h c rfl) (h2.imp id fun h => h c rfl)⟩
    intro y hy
    rcases List.mem_append.1 hy with hy | hy
    · exact g2 y hy
    · rw [List.mem_singleton.1 hy]; exact ha

/-- The phase of a command changes. -/
theorem cmd_change {l : CLog} {i : Nat} {c : Cmd} {x : CEv × List COut} {ph : Phase} (h : CmdIs l i (some c)) (ha : ¬ Asks i x)
    (hp : ∀ l2, PhaseIs i l2 c.phase → PhaseIs i (l2 ++ [x]) ph) : CmdIs (l ++ [x]) i (some { c with phase := ph }) := by
  obtain ⟨l1, pfx, p, name, l2, rfl, g1, g2, h⟩ := h
  refine ⟨l1, pfx, p, name, l2 ++ [x], by simp, g1, ?_, hp l2 h⟩
  intro y hy
  rcases List.mem_append.1 hy with hy | hy
  · exact g2 y hy
  · rw [List.mem_singleton.1 hy]; exact ha

theorem job_snoc {l : CLog} {j : Nat} {o : Option Job} {x : CEv × List COut} (h : JobIs l j o) (ha : ¬ Fetches j x)
    (he : ¬ IsEnd j x.1 ∨ ∀ c, o = some c → c.running = false) (hg : ¬ Gone [x] ∨ ∀ c, o = some c → c.running = false) :
    JobIs (l ++ [x]) j o := by
  cases o with
  | none =>
    intro y hy
    rcases List.mem_append.1 hy with hy | hy
    · exact h y hy
    · rw [List.mem_singleton.1 hy]; exact ha
  | some c =>
    obtain ⟨l1, pfx, name, l2, rfl, g1, g2, hp⟩ := h
    refine ⟨l1, pfx, name, l2 ++ [x], by simp, g1, ?_, ?_⟩
    · intro y hy
      rcases List.mem_append.1 hy with hy | hy
      · exact g2 y hy
      · rw [List.mem_singleton.1 hy]; exact ha
    · rw [gone_snoc]
      constructor
      · intro hr
        obtain ⟨q1, q2⟩ := hp.1 hr
        refine ⟨?_, fun y hy => ?_⟩
        · rintro (h | h)
          · exact q1 h
          · rcases hg with hg | hg
            · exact hg h
            · rw [hg c rfl] at hr; cases hr
        · rcases List.mem_append.1 hy with hy | hy
          · exact q2 y hy
          · rw [List.mem_singleton.1 hy]
            rcases he with he | he
            · exact he
            · rw [he c rfl] at hr; cases hr
      · rintro ⟨q1, q2⟩
        exact hp.2 ⟨fun h => q1 (.inl h), fun y hy => q2 y (List.mem_append_left _ hy)⟩

/-- A job stops. -/
theorem job_stop {l : CLog} {j : Nat} {c : Job} {x : CEv × List COut} (h : JobIs l j (some c)) (ha : ¬ Fetches j x)
    (he : IsEnd j x.1 ∨ Gone [x]) : JobIs (l ++ [x]) j (some { c with running := false }) := by
  obtain ⟨l1, pfx, name, l2, rfl, g1, g2, hp⟩ := h
  refine ⟨l1, pfx, name, l2 ++ [x], by simp, g1, ?_, ?_⟩
  · intro y hy
    rcases List.mem_append.1 hy with hy | hy
    · exact g2 y hy
    · rw [List.mem_singleton.1 hy]; exact ha
  · simp only [Bool.false_eq_true, gone_snoc, false_iff, not_and]
    intro q1 q2
    rcases he with he | he
    · exact q2 x (by simp) he
    · exact q1 (.inr he)

end Ndn.Nfd
