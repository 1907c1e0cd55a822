import Verif.Dial.Spec
import Verif.Net.Props
/-
C132: which forwarder a Face connects to.
-/
namespace Ndn.Dial
open Ndn.Net Spec

theorem parse_form {uri : Bytes} (h : ¬ (FaceUri.parse uri).1 = false) : Net.Spec.UriForm uri (FaceUri.parse uri).2 := by
  rw [← C97_parse]
  cases hp : FaceUri.parse uri with
  | mk a b =>
    rw [hp] at h
    cases a with
    | true => rfl
    | false => exact absurd rfl h

theorem form_ne {uri : Bytes} {f : FaceUri} (h : Net.Spec.UriForm uri f) : uri ≠ [] := by
  rintro rfl
  have := (C97_parse [] f).mpr h
  revert this
  have : (FaceUri.parse []).1 = false := by decide +kernel
  intro h'
  rw [h'] at this
  cases this

/-- A URI leads to what it says: exactly the unix and TCP URIs are accepted, and give the socket, or the host and port, with the defaults of
NFD for what is missing. -/
theorem C132_uri (uri : Bytes) (p : Peer) : transportOf uri = some p ↔ LeadsTo uri p := by
  have ht4 : tcp4Text ≠ unixText := by decide
  have ht6 : tcp6Text ≠ unixText := by decide
  have ht : tcpText ≠ unixText := by decide
  constructor
  · intro h
    unfold transportOf at h
    split at h
    · rename_i e
      subst e
      cases h
      exact .nothing
    · rename_i hne
      dsimp only at h
      split at h
      · cases h
      · rename_i hp
        have hf := parse_form hp
        split at h
        · rename_i hs
          unfold unixName at h
          rw [if_neg hne] at h
          dsimp only at h
          rw [if_neg hp, if_neg (by simpa using hs)] at h
          split at h
          · rename_i hpath
            cases h
            exact .unix uri _ hf hs hpath
          · rename_i hpath
            cases h
            exact .unixDefault uri _ hf hs (by simpa using hpath)
        · split at h
          · rename_i hs
            unfold tcpEndpoint at h
            rw [if_neg hne] at h
            dsimp only at h
            rw [if_neg hp, if_neg (by
              rintro ⟨a, b, c⟩
              rcases hs with hs | hs | hs
              · exact a hs
              · exact b hs
              · exact c hs)] at h
            cases h
            refine .tcp uri _ _ _ hf hs ?_ ?_
            · by_cases hh : (FaceUri.parse uri).2.host = []
              · exact .inr ⟨hh, if_neg (by simpa using hh)⟩
              · exact .inl ⟨hh, if_pos hh⟩
            · by_cases hh : (FaceUri.parse uri).2.port = []
              · exact .inr ⟨hh, if_neg (by simpa using hh)⟩
              · exact .inl ⟨hh, if_pos hh⟩
          · cases h
  · intro h
    cases h with
    | nothing => rfl
    | unix _ f hf hs hp =>
      have e := (C97_parse uri f).mpr hf
      unfold transportOf
      rw [if_neg (form_ne hf)]
      simp only [e, Bool.true_eq_false, if_false, hs, if_true, unixName, form_ne hf, ne_eq, not_true_eq_false]
      rw [if_pos hp]
      rfl
    | unixDefault _ f hf hs hp =>
      have e := (C97_parse uri f).mpr hf
      unfold transportOf
      rw [if_neg (form_ne hf)]
      simp only [e, Bool.true_eq_false, if_false, hs, if_true, unixName, form_ne hf, ne_eq, not_true_eq_false]
      rw [if_neg (by simpa using hp)]
      rfl
    | tcp _ f host port hf hs hh hp =>
      have e := (C97_parse uri f).mpr hf
      have hu : f.scheme ≠ unixText := by rcases hs with h | h | h <;> rw [h] <;> assumption
      have hn : ¬ (f.scheme ≠ tcpText ∧ f.scheme ≠ tcp4Text ∧ f.scheme ≠ tcp6Text) := by
        rintro ⟨a, b, c⟩
        rcases hs with hs | hs | hs
        · exact a hs
        · exact b hs
        · exact c hs
      unfold transportOf
      rw [if_neg (form_ne hf)]
      simp only [e, Bool.true_eq_false, if_false]
      rw [if_neg hu, if_pos hs]
      unfold tcpEndpoint
      rw [if_neg (form_ne hf)]
      simp only [e, Bool.true_eq_false, if_false]
      rw [if_neg hn]
      have h1 : (if f.host ≠ [] then f.host else localhost) = host := by
        rcases hh with ⟨a, rfl⟩ | ⟨a, rfl⟩
        · rw [if_pos a]
        · rw [if_neg (by simpa using a)]
      have h2 : (if f.port ≠ [] then f.port else ndnPort) = port := by
        rcases hp with ⟨a, rfl⟩ | ⟨a, rfl⟩
        · rw [if_pos a]
        · rw [if_neg (by simpa using a)]
      rw [h1, h2]
      rfl

theorem find_counts (e : Env) : (NoFile e ∧ findFile (e.home.toList ++ e.sysconf.toList ++ [e.etc]) = .absent) ∨
    Counts e (findFile (e.home.toList ++ e.sysconf.toList ++ [e.etc])) := by
  obtain ⟨t, home, sys, etc⟩ := e
  have hetc : (etc = .absent ∧ findFile [etc] = .absent) ∨ (etc ≠ .absent ∧ findFile [etc] = etc) := by
    cases etc with
    | absent => exact .inl ⟨rfl, rfl⟩
    | denied => exact .inr ⟨(by intro h; cases h), rfl⟩
    | unreadable => exact .inr ⟨(by intro h; cases h), rfl⟩
    | malformed => exact .inr ⟨(by intro h; cases h), rfl⟩
    | entries g => exact .inr ⟨(by intro h; cases h), rfl⟩
  have hone : ∀ (a : Option At) (rest : List At), ((a = none ∨ a = some .absent) ∧ findFile (a.toList ++ rest) = findFile rest) ∨
      ∃ f, a = some f ∧ f ≠ .absent ∧ findFile (a.toList ++ rest) = f := by
    intro a rest
    cases a with
    | none => exact .inl ⟨.inl rfl, rfl⟩
    | some f =>
      cases f with
      | absent => exact .inl ⟨.inr rfl, rfl⟩
      | denied => exact .inr ⟨_, rfl, (by intro h; cases h), rfl⟩
      | unreadable => exact .inr ⟨_, rfl, (by intro h; cases h), rfl⟩
      | malformed => exact .inr ⟨_, rfl, (by intro h; cases h), rfl⟩
      | entries g => exact .inr ⟨_, rfl, (by intro h; cases h), rfl⟩
  dsimp only
  rw [List.append_assoc]
  rcases hone home (sys.toList ++ [etc]) with ⟨h1, h2⟩ | ⟨f, h1, h2, h3⟩
  · rw [h2]
    rcases hone sys [etc] with ⟨k1, k2⟩ | ⟨f, k1, k2, k3⟩
    · rw [k2]
      rcases hetc with ⟨e1, e2⟩ | ⟨e1, e2⟩
      · exact .inl ⟨⟨h1, k1, e1⟩, e2⟩
      · rw [e2]
        exact .inr ⟨e1, .inr (.inr ⟨h1, k1, rfl⟩)⟩
    · rw [k3]
      exact .inr ⟨k2, .inr (.inl ⟨h1, k1⟩)⟩
  · rw [h3]
    exact .inr ⟨h2, .inl h1⟩

theorem counts_unique {e : Env} {f g : At} (hf : Counts e f) (hg : Counts e g) : f = g := by
  obtain ⟨t, home, sys, etc⟩ := e
  obtain ⟨f0, hf⟩ := hf
  obtain ⟨g0, hg⟩ := hg
  dsimp only at hf hg
  rcases hf with rfl | ⟨hf, rfl⟩ | ⟨hf, hf', rfl⟩ <;> rcases hg with hg | ⟨hg, hg'⟩ | ⟨hg, hg', hg''⟩
  · injection hg
  · rcases hg with hg | hg
    · cases hg
    · injection hg with hg; exact absurd hg f0
  · rcases hg with hg | hg
    · cases hg
    · injection hg with hg; exact absurd hg f0
  · rcases hf with hf | hf
    · rw [hf] at hg; cases hg
    · rw [hf] at hg; injection hg with hg; exact absurd hg.symm g0
  · injection hg'
  · rcases hg' with hg' | hg'
    · cases hg'
    · injection hg' with hg'; exact absurd hg' f0
  · rcases hf with hf | hf
    · rw [hf] at hg; cases hg
    · rw [hf] at hg; injection hg with hg; exact absurd hg.symm g0
  · rcases hf' with hf' | hf'
    · rw [hf'] at hg'; cases hg'
    · rw [hf'] at hg'; injection hg' with hg'; exact absurd hg'.symm g0
  · exact hg''

theorem noFile_counts {e : Env} {f : At} (h : NoFile e) (hf : Counts e f) : False := by
  obtain ⟨t, home, sys, etc⟩ := e
  obtain ⟨f0, hf⟩ := hf
  obtain ⟨h1, h2, h3⟩ := h
  dsimp only at *
  rcases hf with rfl | ⟨_, rfl⟩ | ⟨_, _, rfl⟩
  · rcases h1 with h1 | h1
    · cases h1
    · injection h1 with h1; exact f0 h1
  · rcases h2 with h2 | h2
    · cases h2
    · injection h2 with h2; exact f0 h2
  · exact f0 h3

/-- The full claim: a Face connects to the forwarder that the environment or the configuration file asks for, to the local one if they do
not, and it cannot be made if they ask for something else or cannot be read. -/
def C132_asked_claim : Prop := ∀ (e : Env) (p : Peer), makeDefault e = some p ↔ ∃ uri, Asked e uri ∧ LeadsTo uri p

/-- A configuration file that cannot be opened is taken for an empty one (and hides those in the other places): the Face connects to the
local forwarder without an error. -/
theorem C132_asked_counterexample : ¬ C132_asked_claim := by
  intro h
  have hc : Counts ⟨none, some .unreadable, none, .absent⟩ .unreadable := ⟨(by intro h; cases h), .inl rfl⟩
  obtain ⟨uri, h1, _⟩ := (h ⟨none, some .unreadable, none, .absent⟩ (.unix nfdSock)).mp rfl
  cases h1 with
  | env _ h => cases h
  | entry g _ _ hg _ => exact absurd (counts_unique hc hg) (by intro h; cases h)
  | noEntry g _ hg _ => exact absurd (counts_unique hc hg) (by intro h; cases h)
  | noFile _ hn => exact noFile_counts hn hc

/-- The claim holds if the file that counts can be opened, or the environment variable is set. -/
theorem C132_asked_partial (e : Env) (he : e.transport ≠ none ∨ ¬ Counts e .unreadable) (p : Peer) :
    makeDefault e = some p ↔ ∃ uri, Asked e uri ∧ LeadsTo uri p := by
  simp only [← C132_uri]
  unfold makeDefault
  cases ht : e.transport with
  | some uri =>
    dsimp only
    constructor
    · exact fun h => ⟨uri, .env uri ht, h⟩
    · rintro ⟨u, hu, hp⟩
      cases hu with
      | env _ h => rw [ht] at h; injection h with h; rw [h]; exact hp
      | entry _ _ h => rw [ht] at h; cases h
      | noEntry _ h => rw [ht] at h; cases h
      | noFile h => rw [ht] at h; cases h
  | none =>
    have hnu : ¬ Counts e .unreadable := by
      rcases he with he | he
      · exact absurd ht he
      · exact he
    dsimp only
    unfold config
    rcases find_counts e with ⟨h1, h2⟩ | h1
    · rw [h2]
      dsimp only
      constructor
      · exact fun h => ⟨[], .noFile ht h1, h⟩
      · rintro ⟨u, hu, hp⟩
        cases hu with
        | env _ h => rw [ht] at h; cases h
        | entry _ _ _ hc => exact (noFile_counts h1 hc).elim
        | noEntry _ _ hc => exact (noFile_counts h1 hc).elim
        | noFile => exact hp
    · generalize findFile (e.home.toList ++ e.sysconf.toList ++ [e.etc]) = f at h1
      cases f with
      | absent => exact absurd rfl h1.1
      | unreadable => exact absurd h1 hnu
      | denied =>
        dsimp only
        constructor
        · intro h; cases h
        · rintro ⟨u, hu, hp⟩
          cases hu with
          | env _ h => rw [ht] at h; cases h
          | entry _ _ _ hc => cases counts_unique h1 hc
          | noEntry _ _ hc => cases counts_unique h1 hc
          | noFile _ hn => exact (noFile_counts hn h1).elim
      | malformed =>
        dsimp only
        constructor
        · intro h; cases h
        · rintro ⟨u, hu, hp⟩
          cases hu with
          | env _ h => rw [ht] at h; cases h
          | entry _ _ _ hc => cases counts_unique h1 hc
          | noEntry _ _ hc => cases counts_unique h1 hc
          | noFile _ hn => exact (noFile_counts hn h1).elim
      | entries get =>
        dsimp only
        constructor
        · intro h
          cases hg : get transportKey with
          | none => rw [hg] at h; exact ⟨[], .noEntry get ht h1 hg, h⟩
          | some u => rw [hg] at h; exact ⟨u, .entry get u ht h1 hg, h⟩
        · rintro ⟨u, hu, hp⟩
          cases hu with
          | env _ h => rw [ht] at h; cases h
          | entry g _ hh hc hg =>
            have := counts_unique h1 hc
            injection this with this
            rw [this, hg]
            exact hp
          | noEntry g hh hc hg =>
            have := counts_unique h1 hc
            injection this with this
            rw [this, hg]
            exact hp
          | noFile _ hn => exact (noFile_counts hn h1).elim

/-- Examples: the file in the home directory hides the one in /etc; the environment comes first. -/
def conf (s : String) : At := .entries fun k => if k = transportKey then some (s.toList.map ch) else none

example : makeDefault ⟨none, some (conf "tcp://h:7"), none, conf "unix:///x"⟩ = some (.tcp ("h".toList.map ch) ("7".toList.map ch)) := by decide +kernel
example : makeDefault ⟨some ("unix:///x".toList.map ch), some (conf "tcp://h:7"), none, .absent⟩ = some (.unix ("/x".toList.map ch)) := by decide +kernel
example : makeDefault ⟨some ("tcp6://".toList.map ch), none, none, .absent⟩ = some (.tcp localhost ndnPort) := by decide +kernel
example : makeDefault ⟨some ("udp://h".toList.map ch), none, none, .absent⟩ = none := by decide +kernel

/-- The full claim: all that a unix URI says is used; one with a host is refused, as it is when a FaceUri is canonized. -/
def C132_host_claim : Prop := ∀ (uri : Bytes) (f : FaceUri) (path : Bytes), Net.Spec.UriForm uri f → transportOf uri = some (.unix path) → f.host = []

/-- `unix://var/nfd.sock` (with two slashes) is accepted, and the Face connects to `/nfd.sock`. -/
theorem C132_host_counterexample : ¬ C132_host_claim := by
  intro h
  have := h ("unix://var/nfd.sock".toList.map ch) ⟨unixText, "var".toList.map ch, [], "/nfd.sock".toList.map ch, false⟩ ("/nfd.sock".toList.map ch)
    ((C97_parse _ _).mp (by decide +kernel)) (by decide +kernel)
  revert this
  decide

/-- The full claim: a URI for IPv4 and one for IPv6 do not lead to the same. -/
def C132_family_claim : Prop := ∀ (u4 u6 : Bytes) (f4 f6 : FaceUri) (p : Peer), Net.Spec.UriForm u4 f4 → Net.Spec.UriForm u6 f6 → f4.scheme = tcp4Text →
  f6.scheme = tcp6Text → transportOf u4 = some p → transportOf u6 ≠ some p

/-- With a host name, `tcp4` and `tcp6` mean the same: the transport is given the name only, and connects to whatever it resolves to. -/
theorem C132_family_counterexample : ¬ C132_family_claim := by
  intro h
  exact h ("tcp4://h".toList.map ch) ("tcp6://h".toList.map ch) ⟨tcp4Text, "h".toList.map ch, [], [], false⟩ ⟨tcp6Text, "h".toList.map ch, [], [], false⟩
    (.tcp ("h".toList.map ch) ndnPort) ((C97_parse _ _).mp (by decide +kernel)) ((C97_parse _ _).mp (by decide +kernel)) rfl rfl (by decide +kernel)
    (by decide +kernel)

end Ndn.Dial
