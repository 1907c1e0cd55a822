import Verif.Fetcher.Spec
import Verif.Cert.CacheLemmas
import Verif.Name.OrderLemmas
import Verif.Name.EditProps
import Verif.Name.Props
import Verif.Ims.Lemmas
import Verif.Validator.Lemmas
/-
Properties C108 (outcomes), C109 (bundles) and C110 (Interests for certificates).
-/
namespace Ndn.Fetcher
open Ndn.Name Ndn.Name.Spec Ndn.Cert Ndn.Ims Ndn.Tlv Ndn.Fetcher.Spec

variable {E : Env}

theorem run_append (x : St × List Obs) (a b : List Op) : run E x (a ++ b) = run E (run E x a) b := by
  induction a generalizing x with
  | nil => rfl
  | cons o a ih => exact ih _

theorem run_snoc (x : St × List Obs) (ops : List Op) (op : Op) :
    run E x (ops ++ [op]) = ((step E (run E x ops).1 op).1, (run E x ops).2 ++ (step E (run E x ops).1 op).2) := by
  rw [run_append]; rfl

/-! ### What a step may do -/

/-- The request a phase is about. -/
def Phase.req : Phase → Option Req
  | .idle => none
  | .first r _ => some r
  | .segment r _ => some r
  | .inner r => some r
  | .backoff r => some r
  | .undefined => none

/-- The certificates in the cache. -/
def known (s : St) : List Crt := s.cache.certs.map (·.cert)

/-- The phase and observations when the inner fetcher is asked for a certificate that is not cached. -/
def Sends (E : Env) (r : Req) (ph : Phase) (obs : List Obs) : Prop :=
  match E.inner with
  | .offline => ph = .idle ∧ obs = [.failed r.name]
  | .network => ph = .inner r ∧ obs = [.interest r.name none true]
  | .direct false f => ph = .inner r ∧
      obs = (if f ≠ 0 then [.interest r.name (some f) false, .interest r.name none true] else [.interest r.name none true])
  | .direct true f => if f ≠ 0 then ph = .inner r ∧ obs = [.interest r.name (some f) true] else ph = .idle ∧ obs = [.failed r.name]

/-- Certificates come into the cache only when they arrive and have a validity period. -/
def Ext (E : Env) (s s' : St) (new : List Crt) : Prop := ∀ c ∈ known s', c ∈ known s ∨ c ∈ new ∧ E.hasPeriod c = true

theorem Ext.refl (s : St) (new : List Crt) : Ext E s s new := fun _ h => .inl h

theorem Ext.trans {s s' s'' : St} {new : List Crt} (h : Ext E s s' new) (h' : Ext E s' s'' new) : Ext E s s'' new := by
  intro c hc
  rcases h' c hc with hc | hc
  · exact h c hc
  · exact .inr hc

/-- What a step that concerns the request `r` can lead to; `new` are certificates that arrived; `data`: with a Data packet. -/
inductive Res (E : Env) (s : St) (r : Req) (data : Bool) (new : List Crt) : St × List Obs → Prop
  | continued {s' c} : c ∈ known s ∨ c ∈ new → E.isMatch r.name c = true → r.name <+: c.name →
      Ext E s s' new → s'.phase = .idle → Res E s r data new (s', [.continued r.name c])
  | stuck {s' c} : c ∈ known s → E.hasPeriod c = false → Res E s r data new (s', [.threw])
  | threw {s'} : data = true → Ext E s s' new → s'.phase = s.phase → Res E s r data new (s', [.threw])
  | sent {s' obs} : Ext E s s' new → s'.tag = s.tag → s'.final = s.final → Sends E r s'.phase obs → Res E s r data new (s', obs)
  | next {s' full c} : Ext E s s' new → s'.tag = s.tag → s'.final = s.final →
      (∀ f, s.final = some f → ¬ CompLt f c) → (s.phase = .idle ∨ data = true ∧ ∀ r' n, s.phase ≠ .segment r' n) → s'.phase = .segment r (full ++ [c]) →
      Res E s r data new (s', [.bundle (full ++ [c]) false])
  | undefined {s'} : data = true → Ext E s s' new → s'.phase = .undefined → Res E s r data new (s', [.undefined])

theorem mem_insert {cache : Cache} {c : Crt} {e : Cert.Entry} (h : e ∈ (cache.insert life c).certs) : e ∈ cache.certs ∨ e.cert = c := by
  unfold Cache.insert at h
  split at h
  · exact .inl h
  · split at h
    · rcases mem_insertByName h with rfl | h
      · exact .inr rfl
      · exact .inl h
    · exact .inl h

theorem ext_insert {s s' : St} {c : Crt} {new : List Crt} (h : s'.cache = s.cache.insert life c) (hp : E.hasPeriod c = true)
    (hc : c ∈ known s ∨ c ∈ new) : Ext E s s' new := by
  intro x hx
  obtain ⟨e, he, rfl⟩ := List.mem_map.1 hx
  rw [h] at he
  rcases mem_insert he with he | he
  · exact .inl (List.mem_map.2 ⟨e, he, rfl⟩)
  · rw [he]
    rcases hc with hc | hc
    · exact .inl hc
    · exact .inr ⟨hc, hp⟩

theorem ext_find {s s' : St} {new : List Crt} (h : s'.cache = s.cache.refresh) : Ext E s s' new := by
  intro x hx
  obtain ⟨e, he, rfl⟩ := List.mem_map.1 hx
  rw [h] at he
  exact .inl (List.mem_map.2 ⟨e, (List.mem_filter.1 he).1, rfl⟩)

theorem ext_same {s s' : St} {new : List Crt} (h : s'.cache.certs = s.cache.certs) : Ext E s s' new := by
  intro x hx
  exact .inl (by unfold known at hx ⊢; rw [← h]; exact hx)

theorem found {s : St} {n : List Comp} {m : Crt → Bool} {c : Crt} (h : (s.cache.findInterest n m).2 = some c) :
    c ∈ known s ∧ c ∈ (s.cache.findInterest n m).1.certs.map (·.cert) ∧ n <+: c.name ∧ m c = true := by
  obtain ⟨e, he, h1, h0, h2, h3⟩ := Validator.findInterest_some h
  exact ⟨List.mem_map.2 ⟨e, he, h1⟩, List.mem_map.2 ⟨e, List.mem_filter.2 ⟨he, by simp; omega⟩, h1⟩, h2, h3⟩

theorem innerDoFetch_sends (s : St) (r : Req) :
    (innerDoFetch E s r).1.cache = s.cache ∧ (innerDoFetch E s r).1.tag = s.tag ∧ (innerDoFetch E s r).1.final = s.final ∧
      Sends E r (innerDoFetch E s r).1.phase (innerDoFetch E s r).2 := by
  unfold innerDoFetch Sends
  cases E.inner with
  | offline => simp
  | network => simp
  | direct only f => cases only <;> (dsimp only; split <;> simp)

theorem innerFetch_res (s : St) (r : Req) (b : Bool) (new : List Crt) : Res E s r b new (innerFetch E s r) := by
  unfold innerFetch
  dsimp only
  split
  · rename_i c hc
    obtain ⟨h1, h1', h2, h3⟩ := found hc
    unfold goOn
    split
    · rename_i hp
      refine .continued (.inl h1) h3 h2 ?_ rfl
      exact Ext.trans (s' := { s with cache := (s.cache.findInterest r.name (E.isMatch r.name)).1 }) (ext_find rfl) (ext_insert rfl hp (.inl h1'))
    · rename_i hp
      exact .stuck h1 (by simpa using hp)
  · obtain ⟨h1, h2, h3, h4⟩ := innerDoFetch_sends (E := E) { s with cache := (s.cache.findInterest r.name (E.isMatch r.name)).1 } r
    exact .sent (ext_find h1) h2 h3 h4

theorem fetchNext_res (s : St) (r : Req) (b : Bool) (new : List Crt) (full : List Comp) (c : Comp)
    (hph : s.phase = .idle ∨ b = true ∧ ∀ r' n, s.phase ≠ .segment r' n) :
    Res E s r b new (fetchNext E s r full c) := by
  unfold fetchNext
  dsimp only
  cases hf : s.final with
  | none =>
    simp only [Bool.false_eq_true, if_false]
    exact .next (Ext.refl _ _) rfl hf.symm (by simp [hf]) hph rfl
  | some f =>
    dsimp only
    split
    · have := innerFetch_res (E := E) s r b new
      exact this
    · rename_i h
      refine .next (Ext.refl _ _) rfl hf.symm ?_ hph rfl
      intro f' hf'
      rw [hf] at hf'
      injection hf' with e
      subst e
      rw [← compLt_iff]
      exact h

theorem storeAll_known (cache : Cache) (es : List (Option Crt)) :
    ∀ e ∈ (storeAll E cache es).1.certs, e.cert ∈ cache.certs.map (·.cert) ∨ some e.cert ∈ es ∧ E.hasPeriod e.cert = true := by
  induction es generalizing cache with
  | nil => intro e he; exact .inl (List.mem_map.2 ⟨e, he, rfl⟩)
  | cons o es ih =>
    cases o with
    | none => intro e he; exact .inl (List.mem_map.2 ⟨e, he, rfl⟩)
    | some c =>
      simp only [storeAll]
      split
      · rename_i hp
        intro e he
        rcases ih _ e he with h | ⟨h, h'⟩
        · obtain ⟨e', he', h⟩ := List.mem_map.1 h
          rcases mem_insert he' with h' | h'
          · exact .inl (List.mem_map.2 ⟨e', h', h⟩)
          · exact .inr (by rw [← h, h']; simp [hp])
        · exact .inr ⟨List.mem_cons_of_mem _ h, h'⟩
      · intro e he; exact .inl (List.mem_map.2 ⟨e, he, rfl⟩)

/-- The certificates a packet brings. -/
def brings (d : Pkt) : List Crt := (d.elems.getD []).filterMap id ++ d.asCert.toList

theorem bundleData_res (s : St) (r : Req) (z : Bool) (d : Pkt) (hz : z = true → ∀ r' n, s.phase ≠ .segment r' n) :
    Res E s r true (brings d) (bundleData E s r z d) := by
  unfold bundleData
  split
  · exact .threw rfl (Ext.refl _ _) rfl
  · rename_i cur hcur
    split
    · exact innerFetch_res s r _ _
    · split
      · rename_i h
        exact fetchNext_res s r _ _ _ _ (.inr ⟨rfl, hz (by simp at h; exact h.1)⟩)
      · dsimp only
        cases he : d.elems with
        | none => exact .threw rfl (ext_same rfl) rfl
        | some es =>
          dsimp only
          generalize hfin : (if d.final.isSome = true then d.final else s.final) = fin
          have hk : Ext E s ⟨some d.name, fin, (storeAll E s.cache es).1, s.phase⟩ (brings d) := by
            intro x hx
            obtain ⟨e, h1, rfl⟩ := List.mem_map.1 hx
            rcases storeAll_known s.cache es e h1 with h | ⟨h, h'⟩
            · exact .inl h
            · refine .inr ⟨List.mem_append_left _ ?_, h'⟩
              rw [he]
              exact List.mem_filterMap.2 ⟨_, h, rfl⟩
          have hk2 : Ext E s ⟨some d.name, fin, ((storeAll E s.cache es).1.findInterest r.name (E.isMatch r.name)).1, s.phase⟩ (brings d) :=
            hk.trans (ext_find rfl)
          split
          · split
            · rename_i c hc
              obtain ⟨h1, h1', h2, h3⟩ := found (s := ⟨some d.name, fin, (storeAll E s.cache es).1, s.phase⟩) hc
              unfold goOn
              split
              · rename_i hp
                refine .continued ?_ h3 h2 (hk2.trans (ext_insert rfl hp (.inl h1'))) rfl
                rcases hk c h1 with h | h
                · exact .inl h
                · exact .inr h.1
              · exact .threw rfl hk2 rfl
            · exact .undefined rfl (fun x hx => hk2 x hx) rfl
          · exact .threw rfl hk rfl

/-- What one input can lead to. -/
inductive StepRes (E : Env) (s : St) (op : Op) : St × List Obs → Prop
  | quiet {s'} : s'.phase = s.phase → s'.tag = s.tag → s'.final = s.final → (∀ c, op ≠ .other c) → s'.cache.certs = s.cache.certs →
      StepRes E s op (s', [])
  | other {s' c} : s'.phase = s.phase → s'.tag = s.tag → s'.final = s.final → op = .other c → Ext E s s' [c] → StepRes E s op (s', [])
  | fetch {s' n obs} : op = .fetch n → s.phase = .idle → Res E s (.new n) false [] (s', obs) → StepRes E s op (s', .asked n :: obs)
  | first {s' n dn} : op = .fetch n → s.phase = .idle → E.data = some dn → s.tag = none → s'.tag = none → s'.final = s.final →
      Ext E s s' [] → s'.phase = .first (.new n) (deriveBundleName dn) →
      StepRes E s op (s', [.asked n, .bundle (deriveBundleName dn) true])
  | data {x d r p} : op = .data d → s.phase = .first r p ∨ s.phase = .segment r p → Res E s r true (brings d) x → StepRes E s op x
  | cert {s' d r c} : op = .data d → s.phase = .inner r → c ∈ brings d → E.isMatch r.name c = true → r.name <+: c.name →
      Ext E s s' [c] → s'.phase = .idle → StepRes E s op (s', [.continued r.name c])
  | useless {d r} : op = .data d → s.phase = .inner r → StepRes E s op (s, [.threw])
  | malformed {s' d r} : op = .data d → s.phase = .inner r → s' = { s with phase := .idle } → StepRes E s op (s', [.failed r.name])
  | gaveUp {s' r} : s.phase = .inner r → r.left = 0 → s' = { s with phase := .idle } → StepRes E s op (s', [.failed r.name])
  | backoff {s' r k} : s.phase = .inner r → r.left = k + 1 → s' = { s with phase := .backoff ⟨r.name, k, r.wait * 2⟩ } →
      StepRes E s op (s', [.wait r.wait])
  | fallback {x r p} : s.phase = .first r p ∨ s.phase = .segment r p → x = innerFetch E s r → Res E s r false [] x → StepRes E s op x
  | again {x r k} : s.phase = .inner r → r.left = k + 1 → x = innerFetch E s ⟨r.name, k, r.wait⟩ →
      Res E s ⟨r.name, k, r.wait⟩ false [] x → StepRes E s op x
  | retry {x r} : s.phase = .backoff r → x = innerFetch E s r → Res E s r false [] x → StepRes E s op x

theorem fetch_res (s : St) (n : List Comp) (hi : s.phase = .idle) :
    Res E s (.new n) false [] (fetch E s (.new n)) ∨
    ∃ dn s', E.data = some dn ∧ s.tag = none ∧ s'.tag = none ∧ s'.final = s.final ∧ Ext E s s' [] ∧
      s'.phase = .first (.new n) (deriveBundleName dn) ∧ fetch E s (.new n) = (s', [.bundle (deriveBundleName dn) true]) := by
  unfold fetch
  dsimp only
  split
  · rename_i c hc
    obtain ⟨h1, h1', h2, h3⟩ := found hc
    exact .inl (.continued (.inl h1) h3 h2 (ext_find rfl) rfl)
  · generalize hs0 : ({ s with cache := (s.cache.findInterest (Req.new n).name (E.isMatch (Req.new n).name)).1 } : St) = s0
    have he0 : Ext E s s0 [] := by subst hs0; exact ext_find rfl
    have ht : s0.tag = s.tag := by subst hs0; rfl
    have hfin : s0.final = s.final := by subst hs0; rfl
    have hph : s0.phase = .idle := by subst hs0; exact hi
    have lift : ∀ {x}, Res E s0 (.new n) false [] x → Res E s (.new n) false [] x := by
      intro x hx
      cases hx with
      | continued a b c d e =>
        refine .continued ?_ b c (he0.trans d) e
        rcases a with a | a
        · rcases he0 _ a with a | a
          · exact .inl a
          · exact .inr a.1
        · exact .inr a
      | stuck a b =>
        rcases he0 _ a with a | a
        · exact .stuck a b
        · exact absurd a.1 (by simp)
      | threw a => cases a
      | sent a b c d => exact .sent (he0.trans a) (b.trans ht) (c.trans hfin) d
      | next a b c d e f => exact .next (he0.trans a) (b.trans ht) (c.trans hfin) (fun f h => d f (hfin ▸ h)) (.inl hi) f
      | undefined a => cases a
    unfold doFetch
    split
    · split
      · exact .inl (lift (innerFetch_res _ _ _ _))
      · rename_i dn hdn
        split
        · rename_i htag
          split
          · exact .inl (lift (innerFetch_res _ _ _ _))
          · refine .inr ⟨dn, { s0 with phase := .first (.new n) (deriveBundleName dn) }, hdn, ht ▸ htag, htag, hfin, he0.trans (ext_same rfl), rfl, rfl⟩
        · split
          · exact .inl (lift (fetchNext_res _ _ _ _ _ _ (.inl hph)))
          · exact .inl (lift (innerFetch_res _ _ _ _))
    · obtain ⟨h1, h2, h3, h4⟩ := innerDoFetch_sends (E := E) s0 (.new n)
      exact .inl (lift (.sent (ext_same (congrArg Cache.certs h1)) h2 h3 h4))

theorem step_res (s : St) (op : Op) : StepRes E s op (step E s op) := by
  have q : (∀ c, op ≠ .other c) → StepRes E s op (s, []) := fun h => .quiet rfl rfl rfl h rfl
  cases op with
  | fetch n =>
    simp only [step]
    split
    · rename_i hp
      rcases fetch_res (E := E) s n hp with h | ⟨dn, s', h1, h2, h3, h4, h5, h6, h7⟩
      · exact .fetch rfl hp h
      · rw [h7]; exact .first rfl hp h1 h2 h3 h4 h5 h6
    · exact q (by simp)
  | data d =>
    simp only [step]
    split
    · rename_i r p hp
      split
      · exact .data rfl (.inl hp) (bundleData_res _ _ _ _ (by simp [hp]))
      · exact q (by simp)
    · rename_i r n hp
      split
      · exact .data rfl (.inr hp) (bundleData_res _ _ _ _ (by simp))
      · exact q (by simp)
    · rename_i r hp
      split
      · rename_i c hc
        split
        · rename_i hm
          simp only [Bool.and_eq_true, List.isPrefixOf_iff_prefix] at hm
          have hb : c ∈ brings d := List.mem_append_right _ (by simp [hc])
          unfold goOn
          split
          · rename_i hper
            exact .cert rfl hp hb hm.1 hm.2 (ext_insert rfl hper (.inr (by simp))) rfl
          · exact .useless rfl hp
        · exact q (by simp)
      · split
        · exact .malformed rfl hp rfl
        · exact q (by simp)
    · exact q (by simp)
  | nack =>
    simp only [step]
    split
    · rename_i r p hp; exact .fallback (.inl hp) rfl (innerFetch_res _ _ _ _)
    · rename_i r p hp; exact .fallback (.inr hp) rfl (innerFetch_res _ _ _ _)
    · rename_i r hp
      split
      · rename_i hl; exact .gaveUp hp hl rfl
      · rename_i k hl; exact .backoff hp hl rfl
    · exact q (by simp)
  | timeout =>
    simp only [step]
    split
    · rename_i r p hp; exact .fallback (.inl hp) rfl (innerFetch_res _ _ _ _)
    · rename_i r p hp; exact .fallback (.inr hp) rfl (innerFetch_res _ _ _ _)
    · rename_i r hp
      split
      · rename_i hl; exact .gaveUp hp hl rfl
      · rename_i k hl; exact .again hp hl rfl (innerFetch_res _ _ _ _)
    · exact q (by simp)
  | retry =>
    simp only [step]
    split
    · rename_i r hp; exact .retry hp rfl (innerFetch_res _ _ _ _)
    · exact q (by simp)
  | other c =>
    simp only [step]
    split
    · rename_i hp; exact .other rfl rfl rfl rfl (ext_insert rfl hp (.inr (by simp)))
    · exact .other rfl rfl rfl rfl (Ext.refl _ _)
  | setClock t => exact .quiet rfl rfl rfl (by simp) rfl

/-! ### C108: outcomes -/

/-- The name of the request that is open. -/
def open? (s : St) (log : List Obs) (w : Option (List Comp)) : Prop :=
  match s.phase with
  | .idle => w = none
  | .undefined => ∃ n, w = some n ∧ Obs.undefined ∈ log
  | ph => ∃ r, ph.req = some r ∧ w = some r.name

/-- Of cached certificates. -/
def Timed (E : Env) (s : St) : Prop := ∀ c ∈ known s, E.hasPeriod c = true

theorem timed_ext {s s' : St} {new : List Crt} (h : Timed E s) (he : Ext E s s' new) : Timed E s' := by
  intro c hc
  rcases he c hc with h' | h'
  · exact h c h'
  · exact h'.2

theorem res_timed {s : St} {r : Req} {b : Bool} {new : List Crt} {x : St × List Obs} (h : Res E s r b new x) (ht : Timed E s) : Timed E x.1 := by
  cases h with
  | continued a b c d e => exact timed_ext ht d
  | stuck a b => rw [ht _ a] at b; cases b
  | threw a b c => exact timed_ext ht b
  | sent a b c d => exact timed_ext ht a
  | next a b c d e f => exact timed_ext ht a
  | undefined a b c => exact timed_ext ht b

theorem timed_step {s : St} (op : Op) (ht : Timed E s) : Timed E (step E s op).1 := by
  have h := step_res (E := E) s op
  generalize step E s op = x at h
  cases h with
  | quiet a b c d e => exact timed_ext ht (ext_same (new := []) e)
  | other a b c d e => exact timed_ext ht e
  | fetch a b c => have := res_timed c ht; exact this
  | first a b c d e f g h => exact timed_ext ht g
  | data a b c => exact res_timed c ht
  | cert a b c d e f g => exact timed_ext ht f
  | useless a b => exact ht
  | malformed a b c => subst c; exact ht
  | gaveUp a b c => subst c; exact ht
  | backoff a b c => subst c; exact ht
  | fallback a b c => exact res_timed c ht
  | again a b c d => exact res_timed d ht
  | retry a b c => exact res_timed c ht

theorem timed_run (t : Int) (ops : List Op) : Timed E (run E (.init t, []) ops).1 := by
  refine Replay.snocInd (motive := fun ops => Timed E (run E (.init t, []) ops).1) ops ?_ ?_
  · intro c hc; simp [run, known, St.init, Cache.init] at hc
  · intro ops op ih
    rw [run_snoc]
    exact timed_step op ih

/-- The outcome of a request: `w` is what is open afterwards. -/
theorem res_served {s : St} {r : Req} {b : Bool} {new : List Crt} {x : St × List Obs} (h : Res E s r b new x) (ht : Timed E s) {log : List Obs}
    (hs : Served log (some r.name)) (hb : b = true → s.phase.req = some r) :
    Timed E x.1 ∧ ∃ w, Served (log ++ x.2) w ∧ open? x.1 (log ++ x.2) w := by
  cases h with
  | continued a b c d e => exact ⟨timed_ext ht d, none, .continued hs, by simp [open?, e]⟩
  | stuck a b => rw [ht _ a] at b; cases b
  | threw a b c =>
    refine ⟨timed_ext ht b, some r.name, .threw hs, ?_⟩
    have := hb a
    unfold open?
    dsimp only
    rw [c]
    revert this
    cases s.phase <;> simp [Phase.req]
    all_goals (rintro rfl; rfl)
  | @sent s' obs a b c d =>
    refine ⟨timed_ext ht a, ?_⟩
    unfold Sends at d
    split at d
    · obtain ⟨d1, rfl⟩ := d
      exact ⟨none, .failed hs, by simp [open?, d1]⟩
    · obtain ⟨d1, rfl⟩ := d
      exact ⟨_, .interest hs, by simp [open?, d1, Phase.req]⟩
    · obtain ⟨d1, rfl⟩ := d
      refine ⟨some r.name, ?_, by simp [open?, d1, Phase.req]⟩
      dsimp only
      split
      · rw [show ∀ (a b : Obs), [a, b] = [a] ++ [b] from fun _ _ => rfl, ← List.append_assoc]
        exact .interest (.interest hs)
      · exact .interest hs
    · split at d
      · obtain ⟨d1, rfl⟩ := d
        exact ⟨_, .interest hs, by simp [open?, d1, Phase.req]⟩
      · obtain ⟨d1, rfl⟩ := d
        exact ⟨none, .failed hs, by simp [open?, d1]⟩
  | next a b c d e f => exact ⟨timed_ext ht a, _, .bundle hs, by simp [open?, f, Phase.req]⟩
  | undefined a b c => exact ⟨timed_ext ht b, _, .undefined hs, by simp [open?, c]⟩

/-- Each request has at most one outcome, for the name asked for, and none has two; when nothing is awaited, each has one. -/
theorem C108_once (t : Int) (ops : List Op) :
    ∃ w, Served (run E (.init t, []) ops).2 w ∧
      ((run E (.init t, []) ops).1.phase = .idle → w = none) := by
  have key : Timed E (run E (.init t, []) ops).1 ∧
      ∃ w, Served (run E (.init t, []) ops).2 w ∧ open? (run E (.init t, []) ops).1 (run E (.init t, []) ops).2 w := by
    refine Replay.snocInd (motive := fun ops => Timed E (run E (.init t, []) ops).1 ∧
      ∃ w, Served (run E (.init t, []) ops).2 w ∧ open? (run E (.init t, []) ops).1 (run E (.init t, []) ops).2 w) ops ?_ ?_
    · exact ⟨by intro c hc; simp [run, known, St.init, Cache.init] at hc, none, .nil, rfl⟩
    · intro ops op ih
      rw [run_snoc]
      generalize run E (.init t, []) ops = x at ih ⊢
      obtain ⟨s, log⟩ := x
      dsimp only at ih ⊢
      obtain ⟨ht, w, hs, hw⟩ := ih
      have waiting : ∀ r, s.phase.req = some r → w = some r.name := by
        intro r hr
        unfold open? at hw
        revert hw hr
        cases s.phase <;> simp [Phase.req]
        all_goals (rintro rfl rfl; rfl)
      generalize hx : step E s op = x
      have hstep := step_res (E := E) s op
      rw [hx] at hstep
      cases hstep with
      | quiet a b c d e =>
        refine ⟨timed_ext ht (ext_same (new := []) e), w, by simpa using hs, ?_⟩
        unfold open? at hw ⊢; dsimp only; rw [a, List.append_nil]; exact hw
      | other a b c d e =>
        refine ⟨timed_ext ht e, w, by simpa using hs, ?_⟩
        unfold open? at hw ⊢; dsimp only; rw [a, List.append_nil]; exact hw
      | @fetch s' n obs a b c =>
        have hw0 : w = none := by unfold open? at hw; rw [b] at hw; exact hw
        subst hw0
        have := res_served c ht (Served.asked (n := n) hs) (by simp)
        simpa using this
      | @first s' n dn a b c d e f g h =>
        have hw0 : w = none := by unfold open? at hw; rw [b] at hw; exact hw
        subst hw0
        refine ⟨timed_ext ht g, some n, ?_, by simp [open?, h, Phase.req, Req.new]⟩
        have := Served.bundle (n := deriveBundleName dn) (p := true) (Served.asked (n := n) hs)
        simpa using this
      | @data x d r p a b c =>
        have hr : s.phase.req = some r := by rcases b with b | b <;> rw [b] <;> rfl
        have := waiting r hr
        subst this
        exact res_served c ht hs (fun _ => hr)
      | @cert s' d r c a b c' d' e f g =>
        have := waiting r (by rw [b]; rfl)
        subst this
        exact ⟨timed_ext ht f, none, .continued hs, by simp [open?, g]⟩
      | @useless d r a b =>
        have := waiting r (by rw [b]; rfl)
        subst this
        exact ⟨ht, some r.name, .threw hs, by simp [open?, b, Phase.req]⟩
      | @malformed s' d r a b c =>
        have := waiting r (by rw [b]; rfl)
        subst this; subst c
        exact ⟨ht, none, .failed hs, rfl⟩
      | @gaveUp s' r a b c =>
        have := waiting r (by rw [a]; rfl)
        subst this; subst c
        exact ⟨ht, none, .failed hs, rfl⟩
      | @backoff s' r k a b c =>
        have := waiting r (by rw [a]; rfl)
        subst this; subst c
        exact ⟨ht, some r.name, .wait hs, ⟨_, rfl, rfl⟩⟩
      | @fallback x r p a b c =>
        have := waiting r (by rcases a with a | a <;> rw [a] <;> rfl)
        subst this
        exact res_served c ht hs (by simp)
      | @again x r k a b c d =>
        have := waiting r (by rw [a]; rfl)
        subst this
        exact res_served d ht hs (by simp)
      | @retry x r a b c =>
        have := waiting r (by rw [a]; rfl)
        subst this
        exact res_served c ht hs (by simp)
  obtain ⟨-, w, h1, h2⟩ := key
  refine ⟨w, h1, fun h => ?_⟩
  unfold open? at h2
  rw [h] at h2
  exact h2

/-- What the certificates that the validation continues with are, and where they come from. -/
theorem C108_match (t : Int) (ops : List Op) (n : List Comp) (c : Crt) (h : .continued n c ∈ (run E (.init t, []) ops).2) :
    E.isMatch n c = true ∧ n <+: c.name ∧ Came ops c := by
  have key : (∀ c ∈ known (run E (.init t, []) ops).1, Came ops c) ∧
      ∀ n c, .continued n c ∈ (run E (.init t, []) ops).2 → E.isMatch n c = true ∧ n <+: c.name ∧ Came ops c := by
    clear h
    refine Replay.snocInd (motive := fun ops => (∀ c ∈ known (run E (.init t, []) ops).1, Came ops c) ∧
      ∀ n c, .continued n c ∈ (run E (.init t, []) ops).2 → E.isMatch n c = true ∧ n <+: c.name ∧ Came ops c) ops ?_ ?_
    · exact ⟨by intro c hc; simp [run, known, St.init, Cache.init] at hc, by intro n c h; simp [run] at h⟩
    · intro ops op ih
      rw [run_snoc]
      have ht := timed_run (E := E) t ops
      generalize run E (.init t, []) ops = x at ih ht ⊢
      obtain ⟨s, log⟩ := x
      dsimp only at ih ht ⊢
      obtain ⟨hk, hl⟩ := ih
      have mono : ∀ {c}, Came ops c → Came (ops ++ [op]) c := by
        rintro c (h | ⟨d, h, h'⟩)
        · exact .inl (List.mem_append_left _ h)
        · exact .inr ⟨d, List.mem_append_left _ h, h'⟩
      have hbr : ∀ {d c}, op = .data d → c ∈ brings d → Came (ops ++ [op]) c := by
        intro d c ho hc
        refine .inr ⟨d, by simp [ho], ?_⟩
        rcases List.mem_append.1 hc with hc | hc
        · right
          cases he : d.elems with
          | none => simp [he] at hc
          | some es => exact ⟨es, rfl, by simpa [he] using hc⟩
        · left; simpa using hc
      have ext : ∀ {s' new}, Ext E s s' new → (∀ c ∈ new, Came (ops ++ [op]) c) → ∀ c ∈ known s', Came (ops ++ [op]) c := by
        intro s' new h h' c hc
        rcases h c hc with h | h
        · exact mono (hk c h)
        · exact h' c h.1
      have res : ∀ {r b new x}, Res E s r b new x → (∀ c ∈ new, Came (ops ++ [op]) c) →
          (∀ c ∈ known x.1, Came (ops ++ [op]) c) ∧
          ∀ n c, .continued n c ∈ x.2 → E.isMatch n c = true ∧ n <+: c.name ∧ Came (ops ++ [op]) c := by
        intro r b new x h hn
        cases h with
        | continued a1 a2 a3 a4 a5 =>
          refine ⟨ext a4 hn, ?_⟩
          intro n c h
          simp only [List.mem_singleton, Obs.continued.injEq] at h
          obtain ⟨rfl, rfl⟩ := h
          refine ⟨a2, a3, ?_⟩
          rcases a1 with a1 | a1
          · exact mono (hk _ a1)
          · exact hn _ a1
        | stuck a b => rw [ht _ a] at b; cases b
        | threw a b c => exact ⟨ext b hn, by simp⟩
        | sent a b c d =>
          refine ⟨ext a hn, ?_⟩
          intro n' c' h
          exfalso
          revert h
          unfold Sends at d
          (repeat' split at d) <;> (obtain ⟨-, rfl⟩ := d) <;> (try split) <;> simp
        | next a b c d e f => exact ⟨ext a hn, by simp⟩
        | undefined a b c => exact ⟨ext b hn, by simp⟩
      have fin : ∀ {x : St × List Obs}, ((∀ c ∈ known x.1, Came (ops ++ [op]) c) ∧
          ∀ n c, .continued n c ∈ x.2 → E.isMatch n c = true ∧ n <+: c.name ∧ Came (ops ++ [op]) c) →
          (∀ c ∈ known x.1, Came (ops ++ [op]) c) ∧
          ∀ n c, .continued n c ∈ log ++ x.2 → E.isMatch n c = true ∧ n <+: c.name ∧ Came (ops ++ [op]) c := by
        intro x h
        refine ⟨h.1, fun n c hc => ?_⟩
        rcases List.mem_append.1 hc with hc | hc
        · obtain ⟨a, b, c⟩ := hl n c hc
          exact ⟨a, b, mono c⟩
        · exact h.2 n c hc
      apply fin
      have h := step_res (E := E) s op
      generalize step E s op = x at h ⊢
      cases h with
      | quiet a b c d e => exact ⟨ext (ext_same (new := []) e) (by simp), by simp⟩
      | @other s' c0 a b c d e => exact ⟨ext e (by intro x hx; simp at hx; subst hx; exact .inl (by simp [d])), by simp⟩
      | fetch a b c => exact ⟨(res c (by simp)).1, fun n' c' h => (res c (by simp)).2 n' c' (by simpa using h)⟩
      | first a b c d e f g h => exact ⟨ext g (by simp), by simp⟩
      | data a b c => exact res c (fun x hx => hbr a hx)
      | @cert s' d r c a b c' d' e f g =>
        refine ⟨ext f (by intro x hx; simp at hx; subst hx; exact hbr a c'), ?_⟩
        intro n' c'' h
        simp only [List.mem_singleton, Obs.continued.injEq] at h
        obtain ⟨rfl, rfl⟩ := h
        exact ⟨d', e, hbr a c'⟩
      | useless a b => exact ⟨fun c hc => mono (hk c hc), by simp⟩
      | malformed a b c => subst c; exact ⟨fun c hc => mono (hk c hc), by simp⟩
      | gaveUp a b c => subst c; exact ⟨fun c hc => mono (hk c hc), by simp⟩
      | backoff a b c => subst c; exact ⟨fun c hc => mono (hk c hc), by simp⟩
      | fallback a b c => exact res c (by simp)
      | again a b c d => exact res d (by simp)
      | retry a b c => exact res c (by simp)
  exact key.2 n c h

/-! ### Counting -/

def Phase.pot : Phase → Nat
  | .idle => 0
  | .first r _ => r.left + 1
  | .segment r _ => r.left + 1
  | .inner r => r.left
  | .backoff r => r.left + 1
  | .undefined => 0

def Phase.bpot : Phase → Nat
  | .first _ _ => 1
  | _ => 0

theorem sends_facts {r : Req} {ph : Phase} {obs : List Obs} (h : Sends E r ph obs) :
    attempts obs + ph.pot ≤ r.left + 1 ∧ bundles obs = 0 ∧ ph.bpot = 0 ∧ asks obs = 0 ∧ (ph = .idle ∨ ph = .inner r) ∧
      (∀ n hop b, .interest n hop b ∈ obs → n = r.name ∧ Allowed E.inner hop b) ∧ (∀ ms, .wait ms ∉ obs) := by
  unfold Sends at h
  cases hi : E.inner with
  | offline =>
    rw [hi] at h
    obtain ⟨rfl, rfl⟩ := h
    simp [attempts, bundles, asks, Phase.pot, Phase.bpot]
  | network =>
    rw [hi] at h
    obtain ⟨rfl, rfl⟩ := h
    simp only [attempts, bundles, asks, Phase.pot, Phase.bpot, Allowed, List.mem_singleton]
    refine ⟨by simp; omega, by simp, by simp, by simp, by simp, ?_, by simp⟩
    intro n hop b h
    injection h with h1 h2 h3
    exact ⟨h1, h2, h3⟩
  | direct only f =>
    rw [hi] at h
    cases only with
    | false =>
      dsimp only at h
      obtain ⟨rfl, rfl⟩ := h
      split
      · rename_i hf
        refine ⟨by simp [attempts, Phase.pot]; omega, by simp [bundles], rfl, by simp [asks], .inr rfl, ?_, by simp⟩
        intro n hop b h
        simp only [List.mem_cons, List.not_mem_nil, or_false, Obs.interest.injEq] at h
        rcases h with ⟨h1, h2, h3⟩ | ⟨h1, h2, h3⟩
        · exact ⟨h1, .inr ⟨hf, h2, h3⟩⟩
        · exact ⟨h1, .inl ⟨h2, h3⟩⟩
      · refine ⟨by simp [attempts, Phase.pot]; omega, by simp [bundles], rfl, by simp [asks], .inr rfl, ?_, by simp⟩
        intro n hop b h
        simp only [List.mem_singleton, Obs.interest.injEq] at h
        exact ⟨h.1, .inl h.2⟩
    | true =>
      dsimp only at h
      split at h
      · rename_i hf
        obtain ⟨rfl, rfl⟩ := h
        refine ⟨by simp [attempts, Phase.pot]; omega, by simp [bundles], rfl, by simp [asks], .inr rfl, ?_, by simp⟩
        intro n hop b h
        simp only [List.mem_singleton, Obs.interest.injEq] at h
        exact ⟨h.1, hf, h.2⟩
      · obtain ⟨rfl, rfl⟩ := h
        simp [attempts, bundles, asks, Phase.pot, Phase.bpot]

/-- What is kept. -/
structure Inv (E : Env) (s : St) (log : List Obs) : Prop where
  heard : attempts log + s.phase.pot ≤ 4 * asks log
  sent : bundles log + s.phase.bpot ≤ 2 * asks log
  req : ∀ r, s.phase.req = some r → .asked r.name ∈ log ∧ ∃ j, r.wait = 500 * 2 ^ j ∧ j + r.left ≤ 3
  waits : ∀ ms, .wait ms ∈ log → ms = 500 ∨ ms = 1000 ∨ ms = 2000
  interests : ∀ n hop b, .interest n hop b ∈ log → .asked n ∈ log ∧ Allowed E.inner hop b

/-- How many bundle Interests may follow. -/
def room (s : St) (b : Bool) : Nat :=
  match s.phase with
  | .idle => 1
  | .first _ _ => if b then 1 else 0
  | _ => 0

/-- A result about the request `r`, of which `a` attempts and `k` bundle Interests are left. -/
structure Kept (E : Env) (s : St) (r : Req) (k : Nat) (x : St × List Obs) : Prop where
  heard : attempts x.2 + x.1.phase.pot ≤ r.left + 1
  sent : bundles x.2 + x.1.phase.bpot ≤ k
  asks : asks x.2 = 0
  req : ∀ r', x.1.phase.req = some r' → r' = r
  waits : ∀ ms, .wait ms ∉ x.2
  interests : ∀ n hop b, .interest n hop b ∈ x.2 → n = r.name ∧ Allowed E.inner hop b

theorem res_kept {s : St} {r : Req} {b : Bool} {new : List Crt} {x : St × List Obs} {p : List Comp} (h : Res E s r b new x) (ht : Timed E s)
    (hb : b = true → s.phase = .first r p ∨ s.phase = .segment r p) :
    Kept E s r (room s b) x := by
  cases h with
  | continued a1 a2 a3 a4 a5 =>
    refine ⟨by simp [attempts, a5, Phase.pot], by simp [bundles, a5, Phase.bpot], by simp [asks], by simp [a5, Phase.req], by simp, by simp⟩
  | stuck a b => rw [ht _ a] at b; cases b
  | threw a b c =>
    refine ⟨?_, ?_, by simp [asks], ?_, by simp, by simp⟩
    · dsimp only; rw [c]
      rcases hb a with h | h <;> rw [h] <;> simp [attempts, Phase.pot]
    · dsimp only; rw [c]
      rcases hb a with h | h <;> simp [bundles, Phase.bpot, room, h, a]
    · dsimp only; rw [c]
      rcases hb a with h | h <;> rw [h] <;> simp [Phase.req]
      all_goals (rintro _ rfl; rfl)
  | sent a1 a2 a3 a4 =>
    obtain ⟨h1, h2, h3, h4, h5, h6, h7⟩ := sends_facts a4
    refine ⟨h1, by dsimp only; omega, h4, ?_, h7, h6⟩
    intro r' hr
    dsimp only at hr
    rcases h5 with h5 | h5
    · rw [h5] at hr; cases hr
    · rw [h5] at hr; injection hr with hr; exact hr.symm
  | next a1 a2 a3 a4 a5 a6 =>
    refine ⟨by simp [attempts, a6, Phase.pot], ?_, by simp [asks], ?_, by simp, by simp⟩
    · rcases a5 with a5 | ⟨a5, a7⟩
      · simp [bundles, a6, Phase.bpot, room, a5]
      · rcases hb a5 with h | h
        · simp [bundles, a6, Phase.bpot, room, h, a5]
        · exact absurd h (a7 _ _)
    · intro r' hr
      dsimp only at hr
      rw [a6] at hr
      injection hr with hr
      exact hr.symm
  | undefined a1 a2 a3 =>
    refine ⟨by simp [attempts, a3, Phase.pot], by simp [bundles, a3, Phase.bpot], by simp [asks], by simp [a3, Phase.req], by simp, by simp⟩

theorem kept_inv {s : St} {log : List Obs} {r : Req} {k : Nat} {x : St × List Obs} (h : Kept E s r k x) (hi : Inv E s log)
    (hh : r.left + 1 ≤ s.phase.pot) (hk : k ≤ s.phase.bpot) (ha : .asked r.name ∈ log) (hj : ∃ j, r.wait = 500 * 2 ^ j ∧ j + r.left ≤ 3) :
    Inv E x.1 (log ++ x.2) := by
  obtain ⟨i1, i2, i3, i4, i5⟩ := hi
  obtain ⟨k1, k2, k3, k4, k5, k6⟩ := h
  refine ⟨?_, ?_, ?_, ?_, ?_⟩
  · have e1 : attempts (log ++ x.2) = attempts log + attempts x.2 := List.countP_append
    have e2 : asks (log ++ x.2) = asks log + asks x.2 := List.countP_append
    omega
  · have e1 : bundles (log ++ x.2) = bundles log + bundles x.2 := List.countP_append
    have e2 : asks (log ++ x.2) = asks log + asks x.2 := List.countP_append
    omega
  · intro r' hr'
    have := k4 r' hr'
    subst this
    exact ⟨List.mem_append_left _ ha, hj⟩
  · intro ms hms
    rcases List.mem_append.1 hms with hms | hms
    · exact i4 ms hms
    · exact absurd hms (k5 ms)
  · intro n hop b h
    rcases List.mem_append.1 h with h | h
    · exact ⟨List.mem_append_left _ (i5 n hop b h).1, (i5 n hop b h).2⟩
    · obtain ⟨rfl, h2⟩ := k6 n hop b h
      exact ⟨List.mem_append_left _ ha, h2⟩

theorem inv_run (t : Int) (ops : List Op) : Inv E (run E (.init t, []) ops).1 (run E (.init t, []) ops).2 := by
  refine Replay.snocInd (motive := fun ops => Inv E (run E (.init t, []) ops).1 (run E (.init t, []) ops).2) ops ?_ ?_
  · exact ⟨by simp [run, attempts, St.init, Phase.pot], by simp [run, bundles, St.init, Phase.bpot], by simp [run, St.init, Phase.req], by simp [run], by simp [run]⟩
  · intro ops op ih
    rw [run_snoc]
    have ht := timed_run (E := E) t ops
    generalize run E (.init t, []) ops = x at ih ht ⊢
    obtain ⟨s, log⟩ := x
    dsimp only at ih ht ⊢
    have h := step_res (E := E) s op
    generalize step E s op = x at h ⊢
    have same : ∀ {s' : St}, s'.phase = s.phase → Inv E s' (log ++ []) := by
      intro s' hp
      rw [List.append_nil]
      exact ⟨hp ▸ ih.heard, hp ▸ ih.sent, hp ▸ ih.req, ih.waits, ih.interests⟩
    have idle : ∀ {s' : St} {o : Obs}, s'.phase = .idle → attempts [o] = 0 → bundles [o] = 0 → (∀ ms, o ≠ .wait ms) → (∀ n h b, o ≠ .interest n h b) →
        Inv E s' (log ++ [o]) := by
      intro s' o hp h1 h2 h3 h4
      have e1 : attempts (log ++ [o]) = attempts log + attempts [o] := List.countP_append
      have e2 : asks (log ++ [o]) = asks log + asks [o] := List.countP_append
      have e3 : bundles (log ++ [o]) = bundles log + bundles [o] := List.countP_append
      refine ⟨?_, ?_, ?_, ?_, ?_⟩
      · rw [hp]; have := ih.heard; simp only [Phase.pot]; omega
      · rw [hp]; have := ih.sent; simp only [Phase.bpot]; omega
      · rw [hp]; intro r hr; cases hr
      · intro ms hm
        rcases List.mem_append.1 hm with hm | hm
        · exact ih.waits ms hm
        · exact absurd (List.mem_singleton.1 hm).symm (h3 ms)
      · intro n h b hm
        rcases List.mem_append.1 hm with hm | hm
        · exact ⟨List.mem_append_left _ (ih.interests n h b hm).1, (ih.interests n h b hm).2⟩
        · exact absurd (List.mem_singleton.1 hm).symm (h4 n h b)
    cases h with
    | quiet a b c d e => exact same a
    | other a b c d e => exact same a
    | @fetch s' n obs a b c =>
      have hk := res_kept (p := []) c ht (by simp)
      have hz : room s false ≤ 1 := by simp [room, b]
      obtain ⟨k1, k2, k3, k4, k5, k6⟩ := hk
      dsimp only at k1 k2 k3 k4 k5 k6
      have hc : log ++ Obs.asked n :: obs = (log ++ [Obs.asked n]) ++ obs := by simp
      dsimp only
      rw [hc]
      have e1 : attempts (log ++ [Obs.asked n] ++ obs) = attempts log + 0 + attempts obs := by
        simp only [attempts, List.countP_append]; simp
      have e2 : asks (log ++ [Obs.asked n] ++ obs) = asks log + 1 + asks obs := by
        simp only [asks, List.countP_append]; simp
      have e3 : bundles (log ++ [Obs.asked n] ++ obs) = bundles log + 0 + bundles obs := by
        simp only [bundles, List.countP_append]; simp
      have i1 := ih.heard
      have i2 := ih.sent
      refine ⟨?_, ?_, ?_, ?_, ?_⟩
      · rw [e1, e2]; simp only [Req.new] at k1; omega
      · rw [e3, e2]; omega
      · intro r' hr'
        have := k4 r' hr'
        subst this
        exact ⟨by simp [Req.new], 0, by simp [Req.new], by simp [Req.new]⟩
      · intro ms hms
        simp only [List.mem_append, List.mem_singleton, reduceCtorEq, or_false] at hms
        rcases hms with hms | hms
        · exact ih.waits ms hms
        · exact absurd hms (k5 ms)
      · intro n' hop b h
        simp only [List.mem_append, List.mem_singleton, reduceCtorEq, or_false] at h
        rcases h with h | h
        · exact ⟨by simp [(ih.interests n' hop b h).1], (ih.interests n' hop b h).2⟩
        · obtain ⟨rfl, h2⟩ := k6 n' hop b h
          exact ⟨by simp [Req.new], h2⟩
    | @first s' n dn a b c d e f g h =>
      have e1 : attempts (log ++ [Obs.asked n, Obs.bundle (deriveBundleName dn) true]) = attempts log := by
        simp [attempts, List.countP_append]
      have e2 : asks (log ++ [Obs.asked n, Obs.bundle (deriveBundleName dn) true]) = asks log + 1 := by
        simp [asks, List.countP_append]
      have e3 : bundles (log ++ [Obs.asked n, Obs.bundle (deriveBundleName dn) true]) = bundles log + 1 := by
        simp [bundles, List.countP_append]
      have i1 := ih.heard
      have i2 := ih.sent
      dsimp only
      refine ⟨?_, ?_, ?_, ?_, ?_⟩
      · rw [e1, e2, h]; simp only [Phase.pot, Req.new]; omega
      · rw [e3, e2, h]; simp only [Phase.bpot]; omega
      · rw [h]
        intro r hr
        injection hr with hr
        subst hr
        exact ⟨by simp [Req.new], 0, by simp [Req.new], by simp [Req.new]⟩
      · intro ms hm; exact ih.waits ms (by simpa using hm)
      · intro n' hop b' hm
        have := ih.interests n' hop b' (by simpa using hm)
        exact ⟨List.mem_append_left _ this.1, this.2⟩
    | @data x d r p a b c =>
      have hr : s.phase.req = some r := by rcases b with b | b <;> rw [b] <;> rfl
      refine kept_inv (res_kept c ht (fun _ => b)) ih ?_ ?_ (ih.req r hr).1 (ih.req r hr).2
      · rcases b with b | b <;> rw [b] <;> simp [Phase.pot]
      · rcases b with b | b <;> simp [b, Phase.bpot, room]
    | cert a b c d e f g => exact idle g (by simp [attempts]) (by simp [bundles]) (by simp) (by simp)
    | useless a b =>
      have e1 : attempts (log ++ [Obs.threw]) = attempts log := by simp [attempts, List.countP_append]
      have e2 : asks (log ++ [Obs.threw]) = asks log := by simp [asks, List.countP_append]
      have e3 : bundles (log ++ [Obs.threw]) = bundles log := by simp [bundles, List.countP_append]
      refine ⟨?_, ?_, ?_, ?_, ?_⟩
      · dsimp only; rw [e1, e2]; exact ih.heard
      · dsimp only; rw [e3, e2]; exact ih.sent
      · intro r hr; exact ⟨List.mem_append_left _ (ih.req r hr).1, (ih.req r hr).2⟩
      · intro ms hm; exact ih.waits ms (by simpa using hm)
      · intro n hop b hm
        have := ih.interests n hop b (by simpa using hm)
        exact ⟨List.mem_append_left _ this.1, this.2⟩
    | malformed a b c => subst c; exact idle rfl (by simp [attempts]) (by simp [bundles]) (by simp) (by simp)
    | gaveUp a b c => subst c; exact idle rfl (by simp [attempts]) (by simp [bundles]) (by simp) (by simp)
    | @backoff s' r k a b c =>
      subst c
      obtain ⟨h1, j, h2, h3⟩ := ih.req r (by rw [a]; rfl)
      have e1 : attempts (log ++ [Obs.wait r.wait]) = attempts log := by simp [attempts, List.countP_append]
      have e2 : asks (log ++ [Obs.wait r.wait]) = asks log := by simp [asks, List.countP_append]
      have e3 : bundles (log ++ [Obs.wait r.wait]) = bundles log := by simp [bundles, List.countP_append]
      have i1 := ih.heard
      have i2 := ih.sent
      rw [a] at i1 i2
      simp only [Phase.pot, Phase.bpot] at i1 i2
      refine ⟨?_, ?_, ?_, ?_, ?_⟩
      · dsimp only; rw [e1, e2]; simp only [Phase.pot]; omega
      · dsimp only; rw [e3, e2]; simp only [Phase.bpot]; omega
      · intro r' hr'
        injection hr' with hr'
        subst hr'
        exact ⟨List.mem_append_left _ h1, j + 1, by dsimp only; rw [h2, Nat.pow_succ]; omega, by dsimp only; omega⟩
      · intro ms hm
        rcases List.mem_append.1 hm with hm | hm
        · exact ih.waits ms hm
        · simp only [List.mem_singleton, Obs.wait.injEq] at hm
          subst hm
          have : j = 0 ∨ j = 1 ∨ j = 2 := by omega
          rcases this with rfl | rfl | rfl <;> simp [h2]
      · intro n hop b hm
        have := ih.interests n hop b (by simpa using hm)
        exact ⟨List.mem_append_left _ this.1, this.2⟩
    | @fallback x r p a b c =>
      have hr : s.phase.req = some r := by rcases a with a | a <;> rw [a] <;> rfl
      refine kept_inv (res_kept (p := []) c ht (by simp)) ih ?_ ?_ (ih.req r hr).1 (ih.req r hr).2
      · rcases a with a | a <;> rw [a] <;> simp [Phase.pot]
      · rcases a with a | a <;> simp [a, room]
    | @again x r k a b c d =>
      obtain ⟨h1, j, h2, h3⟩ := ih.req r (by rw [a]; rfl)
      refine kept_inv (res_kept (p := []) d ht (by simp)) ih ?_ ?_ h1 ⟨j, h2, by dsimp only; omega⟩
      · rw [a]; simp [Phase.pot, b]
      · simp [a, room]
    | @retry x r a b c =>
      have hr : s.phase.req = some r := by rw [a]; rfl
      refine kept_inv (res_kept (p := []) c ht (by simp)) ih ?_ ?_ (ih.req r hr).1 (ih.req r hr).2
      · rw [a]; simp [Phase.pot]
      · simp [a, room]

/-- At most two Interests for bundles and four attempts to get the certificate are made for a request. -/
theorem C108_bound (t : Int) (ops : List Op) :
    attempts (run E (.init t, []) ops).2 ≤ 4 * asks (run E (.init t, []) ops).2 ∧
    bundles (run E (.init t, []) ops).2 ≤ 2 * asks (run E (.init t, []) ops).2 := by
  have h := inv_run (E := E) t ops
  exact ⟨by have := h.heard; omega, by have := h.sent; omega⟩

/-- Interests for certificates are for those asked for, and go where they may. -/
theorem C110_interests (t : Int) (ops : List Op) (n : List Comp) (hop : Option Nat) (b : Bool)
    (h : .interest n hop b ∈ (run E (.init t, []) ops).2) : .asked n ∈ (run E (.init t, []) ops).2 ∧ Allowed E.inner hop b :=
  (inv_run (E := E) t ops).interests n hop b h

/-- Each attempt goes to the network and, if the packet came from a known face, also there. -/
theorem C110_both (s : St) (op : Op) (n : List Comp) (f : Nat) (hi : E.inner = .direct false f) (hf : f ≠ 0) :
    .interest n none true ∈ (step E s op).2 ↔ .interest n (some f) false ∈ (step E s op).2 := by
  have sends : ∀ {r : Req} {ph obs}, Sends E r ph obs → (.interest n none true ∈ obs ↔ .interest n (some f) false ∈ obs) := by
    intro r ph obs h
    unfold Sends at h
    rw [hi] at h
    obtain ⟨-, rfl⟩ := h
    simp [hf]
  have res : ∀ {r b new x}, Res E s r b new x → (.interest n none true ∈ x.2 ↔ .interest n (some f) false ∈ x.2) := by
    intro r b new x h
    cases h with
    | sent a b c d => exact sends d
    | _ => simp
  have h := step_res (E := E) s op
  generalize step E s op = x at h ⊢
  cases h with
  | fetch a b c => have := res c; simpa using this
  | data a b c => exact res c
  | fallback a b c => exact res c
  | again a b c d => exact res d
  | retry a b c => exact res c
  | _ => simp

/-- The waits after the first, second and third Nack. -/
theorem C110_waits (t : Int) (ops : List Op) (ms : Nat) (h : .wait ms ∈ (run E (.init t, []) ops).2) : ms = 500 ∨ ms = 1000 ∨ ms = 2000 :=
  (inv_run (E := E) t ops).waits ms h

/-! ### Every request ends -/

def Phase.steps : Phase → Nat
  | .idle => 0
  | .first r _ => 2 * r.left + 2
  | .segment r _ => 2 * r.left + 2
  | .inner r => 2 * r.left + 1
  | .backoff r => 2 * r.left + 2
  | .undefined => 0

theorem innerFetch_steps (s : St) (r : Req) (ht : Timed E s) : (innerFetch E s r).1.phase.steps ≤ 2 * r.left + 1 ∧ (innerFetch E s r).1.phase ≠ .undefined := by
  have h := innerFetch_res (E := E) s r false []
  unfold innerFetch at h ⊢
  dsimp only at h ⊢
  split
  · rename_i c hc
    have hp := ht c (found hc).1
    simp [goOn, hp, Phase.steps]
  · obtain ⟨-, -, -, h4⟩ := innerDoFetch_sends (E := E) { s with cache := (s.cache.findInterest r.name (E.isMatch r.name)).1 } r
    obtain ⟨-, -, -, -, h5, -, -⟩ := sends_facts h4
    rcases h5 with h5 | h5 <;> rw [h5] <;> simp [Phase.steps]

theorem noAnswer_steps (s : St) (b : Bool) (ht : Timed E s) (hu : s.phase ≠ .undefined) :
    (step E s (noAnswer s b)).1.phase.steps ≤ s.phase.steps - 1 ∧ (step E s (noAnswer s b)).1.phase ≠ .undefined := by
  cases hp : s.phase with
  | idle => cases b <;> simp [noAnswer, hp, step, Phase.steps]
  | undefined => exact absurd hp hu
  | backoff r =>
    have := innerFetch_steps (E := E) s r ht
    simp only [noAnswer, hp, step]
    exact ⟨Nat.le_trans this.1 (by simp [Phase.steps]), this.2⟩
  | first r p =>
    have := innerFetch_steps (E := E) s r ht
    cases b <;> simp only [noAnswer, hp, step] <;> exact ⟨Nat.le_trans this.1 (by simp [Phase.steps]), this.2⟩
  | segment r p =>
    have := innerFetch_steps (E := E) s r ht
    cases b <;> simp only [noAnswer, hp, step] <;> exact ⟨Nat.le_trans this.1 (by simp [Phase.steps]), this.2⟩
  | inner r =>
    cases hl : r.left with
    | zero => cases b <;> simp [noAnswer, hp, step, hl, Phase.steps]
    | succ k =>
      cases b with
      | true => simp [noAnswer, hp, step, hl, Phase.steps]; omega
      | false =>
        have := innerFetch_steps (E := E) s ⟨r.name, k, r.wait⟩ ht
        simp only [noAnswer, hp, step, hl]
        exact ⟨Nat.le_trans this.1 (by simp [Phase.steps, hl]; omega), this.2⟩

/-- Whatever the network does, if nothing useful arrives any more, eight answers are enough. -/
theorem C108_ends (t : Int) (ops : List Op) (bs : List Bool) (hb : 8 ≤ bs.length) (hu : (run E (.init t, []) ops).1.phase ≠ .undefined) :
    (drive E (run E (.init t, []) ops) bs).1.phase = .idle := by
  have ht := timed_run (E := E) t ops
  have hs : (run E (.init t, []) ops).1.phase.steps ≤ 8 := by
    have h := inv_run (E := E) t ops
    cases hp : (run E (.init t, []) ops).1.phase with
    | idle => simp [Phase.steps]
    | undefined => simp [Phase.steps]
    | first r p => obtain ⟨-, j, -, hj⟩ := h.req r (by rw [hp]; rfl); simp only [Phase.steps]; omega
    | segment r p => obtain ⟨-, j, -, hj⟩ := h.req r (by rw [hp]; rfl); simp only [Phase.steps]; omega
    | inner r => obtain ⟨-, j, -, hj⟩ := h.req r (by rw [hp]; rfl); simp only [Phase.steps]; omega
    | backoff r => obtain ⟨-, j, -, hj⟩ := h.req r (by rw [hp]; rfl); simp only [Phase.steps]; omega
  generalize run E (.init t, []) ops = x at hu ht hs
  have gen : ∀ (bs : List Bool) (x : St × List Obs), Timed E x.1 → x.1.phase ≠ .undefined → x.1.phase.steps ≤ bs.length →
      (drive E x bs).1.phase = .idle := by
    intro bs
    induction bs with
    | nil =>
      intro x ht hu hs
      simp only [drive]
      cases hp : x.1.phase <;> rw [hp] at hs hu <;> simp [Phase.steps] at hs hu ⊢
    | cons b bs ih =>
      intro x ht hu hs
      obtain ⟨h1, h2⟩ := noAnswer_steps (E := E) x.1 b ht hu
      refine ih _ (timed_step _ ht) h2 ?_
      simp only [List.length_cons] at hs
      dsimp only
      omega
  exact gen bs x ht hu (by omega)

/-! ### C108: nothing undefined -/

/-- The full claim: no input leads to undefined behaviour, so that every request gets its outcome. -/
def C108_defined_claim : Prop := ∀ (E : Env) (t : Int) (ops : List Op), .undefined ∉ (run E (.init t, []) ops).2

/-- Names for the examples. -/
def g (x : UInt8) : Comp := ⟨8, [x]⟩

def exEnv : Env := ⟨true, some [g 1], .network, fun n c => n.isPrefixOf c.name, fun _ => true⟩

def exPkt (seg : Comp) (es : List (Option Crt)) : Pkt := ⟨[g 1, bundleComp, appendNumber0, g 9, seg], none, some es, none⟩

/-- A bundle without the certificate asked for: the result of the look-up, a null pointer, is dereferenced. -/
theorem C108_defined_counterexample : ¬ C108_defined_claim := by
  intro h
  exact h exEnv 0 [.fetch [g 7], .data (exPkt ⟨50, [0]⟩ [])] (by decide)

/-- `insertByName` with nothing there of that name. -/
theorem insert_there {cache : Cache} {c : Crt} (hn : cache.now ≤ c.notAfter) (hi : int64 (cache.now + life) = true)
    (hfresh : ∀ e ∈ cache.certs, cache.now ≤ e.removal) :
    (∃ e ∈ (cache.insert life c).certs, e.cert.name = c.name ∧ cache.now ≤ e.removal) ∧
    (∀ e ∈ (cache.insert life c).certs, cache.now ≤ e.removal) ∧ (cache.insert life c).now = cache.now := by
  have hl : (0 : Int) ≤ life := by decide
  unfold Cache.insert
  rw [if_neg (by omega), if_pos hi]
  have all : ∀ e ∈ insertByName ⟨c, min c.notAfter (cache.now + life)⟩ cache.certs, cache.now ≤ e.removal := by
    intro e he
    rcases mem_insertByName he with rfl | he
    · dsimp only; omega
    · exact hfresh e he
  refine ⟨?_, all, rfl⟩
  by_cases hx : ∃ x ∈ cache.certs, x.cert.name = c.name
  · obtain ⟨x, hx, h⟩ := hx
    exact ⟨x, mem_insertByName_old hx, h, hfresh x hx⟩
  · have := mem_insertByName_new (e := ⟨c, min c.notAfter (cache.now + life)⟩) (l := cache.certs) (fun x hx' h => hx ⟨x, hx', h⟩)
    exact ⟨_, this, rfl, all _ this⟩

theorem insert_keeps {cache : Cache} {c : Crt} {e : Cert.Entry} (h : e ∈ cache.certs) : e ∈ (cache.insert life c).certs := by
  unfold Cache.insert
  split
  · exact h
  · split
    · exact mem_insertByName_old h
    · exact h

theorem insert_sorted {cache : Cache} {c : Crt} (h : CSorted cache.certs) : CSorted (cache.insert life c).certs := by
  unfold Cache.insert
  split
  · exact h
  · split
    · exact insertByName_sorted h
    · exact h

theorem storeAll_keeps (es : List (Option Crt)) (cache : Cache) (h : CSorted cache.certs) :
    CSorted (storeAll E cache es).1.certs ∧ (storeAll E cache es).1.now = cache.now ∧ ∀ e ∈ cache.certs, e ∈ (storeAll E cache es).1.certs := by
  induction es generalizing cache with
  | nil => exact ⟨h, rfl, fun e he => he⟩
  | cons o es ih =>
    cases o with
    | none => exact ⟨h, rfl, fun e he => he⟩
    | some c =>
      simp only [storeAll]
      split
      · obtain ⟨h1, h2, h3⟩ := ih (cache.insert life c) (insert_sorted h)
        refine ⟨h1, ?_, fun e he => h3 e (insert_keeps he)⟩
        rw [h2]
        unfold Cache.insert
        repeat' split
        all_goals rfl
      · exact ⟨h, rfl, fun e he => he⟩

theorem storeAll_there {es : List (Option Crt)} {cache : Cache} (hall : ∀ o ∈ es, ∃ c, o = some c ∧ E.hasPeriod c = true)
    (hi : int64 (cache.now + life) = true) (hfresh : ∀ e ∈ cache.certs, cache.now ≤ e.removal) (hs : CSorted cache.certs) {c : Crt}
    (hc : some c ∈ es) (hn : cache.now ≤ c.notAfter) :
    (storeAll E cache es).2 = true ∧ ∃ e ∈ (storeAll E cache es).1.certs, e.cert.name = c.name ∧ cache.now ≤ e.removal := by
  have ok : ∀ (es : List (Option Crt)) (cache : Cache), (∀ o ∈ es, ∃ c, o = some c ∧ E.hasPeriod c = true) → (storeAll E cache es).2 = true := by
    intro es
    induction es with
    | nil => intro _ _; rfl
    | cons o es ih =>
      intro cache h
      obtain ⟨c, rfl, hp⟩ := h o (by simp)
      simp only [storeAll, hp, if_true]
      exact ih _ (fun o ho => h o (List.mem_cons_of_mem _ ho))
  refine ⟨ok es cache hall, ?_⟩
  induction es generalizing cache with
  | nil => cases hc
  | cons o es ih =>
    obtain ⟨c', rfl, hp⟩ := hall o (by simp)
    simp only [storeAll, hp, if_true]
    rcases List.mem_cons.1 hc with hc | hc
    · injection hc with hc
      subst hc
      obtain ⟨⟨e, h1, h2, h3⟩, -, -⟩ := insert_there hn hi hfresh
      exact ⟨e, (storeAll_keeps es _ (insert_sorted hs)).2.2 e h1, h2, h3⟩
    · have hnow : (cache.insert life c').now = cache.now := by
        unfold Cache.insert
        repeat' split
        all_goals rfl
      have hf' : ∀ e ∈ (cache.insert life c').certs, cache.now ≤ e.removal := by
        by_cases hx : cache.now ≤ c'.notAfter
        · exact (insert_there hx hi hfresh).2.1
        · unfold Cache.insert
          rw [if_pos (by omega)]
          exact hfresh
      have := ih (cache := cache.insert life c') (fun o ho => hall o (List.mem_cons_of_mem _ ho)) (by rw [hnow]; exact hi)
        (by rw [hnow]; exact hf') (insert_sorted hs) hc (by rw [hnow]; exact hn)
      rw [hnow] at this
      exact this

theorem goOn_sorted {s : St} (r : Req) (c : Crt) (h : CSorted s.cache.certs) : CSorted (goOn E s r c).1.cache.certs := by
  unfold goOn
  split
  · exact insert_sorted h
  · exact h

theorem innerFetch_sorted {s : St} (r : Req) (h : CSorted s.cache.certs) : CSorted (innerFetch E s r).1.cache.certs := by
  have hr : CSorted s.cache.refresh.certs := List.Pairwise.filter _ h
  unfold innerFetch
  dsimp only
  split
  · exact goOn_sorted r _ hr
  · rw [(innerDoFetch_sends _ _).1]; exact hr

theorem fetchNext_sorted {s : St} (r : Req) (full : List Comp) (c : Comp) (h : CSorted s.cache.certs) :
    CSorted (fetchNext E s r full c).1.cache.certs := by
  unfold fetchNext
  dsimp only
  cases s.final with
  | none => exact h
  | some f =>
    dsimp only
    split
    · exact innerFetch_sorted r h
    · exact h

theorem bundleData_sorted {s : St} (r : Req) (z : Bool) (d : Pkt) (h : CSorted s.cache.certs) : CSorted (bundleData E s r z d).1.cache.certs := by
  unfold bundleData
  split
  · exact h
  · split
    · exact innerFetch_sorted r h
    · split
      · exact fetchNext_sorted r _ _ h
      · dsimp only
        split
        · exact h
        · rename_i es _
          have hs := (storeAll_keeps (E := E) es s.cache h).1
          have hr : CSorted (storeAll E s.cache es).1.refresh.certs := List.Pairwise.filter _ hs
          split
          · split
            · exact goOn_sorted r _ hr
            · exact hr
          · exact hs

theorem fetch_sorted {s : St} (r : Req) (h : CSorted s.cache.certs) : CSorted (fetch E s r).1.cache.certs := by
  have hr : CSorted s.cache.refresh.certs := List.Pairwise.filter _ h
  unfold fetch
  dsimp only
  split
  · exact hr
  · unfold doFetch
    split
    · split
      · exact innerFetch_sorted r hr
      · split
        · split
          · exact innerFetch_sorted r hr
          · exact hr
        · split
          · exact fetchNext_sorted r _ _ hr
          · exact innerFetch_sorted r hr
    · rw [(innerDoFetch_sends _ _).1]; exact hr

theorem sorted_step {s : St} (op : Op) (h : CSorted s.cache.certs) : CSorted (step E s op).1.cache.certs := by
  cases op with
  | fetch n =>
    simp only [step]
    split
    · exact fetch_sorted _ h
    · exact h
  | data d =>
    simp only [step]
    split
    · split
      · exact bundleData_sorted _ _ _ h
      · exact h
    · split
      · exact bundleData_sorted _ _ _ h
      · exact h
    · split
      · split
        · exact goOn_sorted _ _ h
        · exact h
      · split <;> exact h
    · exact h
  | nack =>
    simp only [step]
    split
    · exact innerFetch_sorted _ h
    · exact innerFetch_sorted _ h
    · split <;> exact h
    · exact h
  | timeout =>
    simp only [step]
    split
    · exact innerFetch_sorted _ h
    · exact innerFetch_sorted _ h
    · split
      · exact h
      · exact innerFetch_sorted _ h
    · exact h
  | retry =>
    simp only [step]
    split
    · exact innerFetch_sorted _ h
    · exact h
  | other c =>
    simp only [step]
    split
    · exact insert_sorted h
    · exact h
  | setClock t => exact h

theorem sorted_run (t : Int) (ops : List Op) : CSorted (run E (.init t, []) ops).1.cache.certs := by
  refine Replay.snocInd (motive := fun ops => CSorted (run E (.init t, []) ops).1.cache.certs) ops ?_ ?_
  · exact List.Pairwise.nil
  · intro ops op ih
    rw [run_snoc]
    exact sorted_step op ih

/-- A bundle segment that consists of certificates, among them one asked for that has not expired, serves the request, as
long as no certificate in the cache has just expired and matching depends on the name alone. -/
theorem C108_defined_partial (t : Int) (ops : List Op) (d : Pkt) (r : Req) (es : List (Option Crt)) (c : Crt) (seg : Comp)
    (hw : (run E (.init t, []) ops).1.phase = .segment r d.name ∨
      ∃ p, (run E (.init t, []) ops).1.phase = .first r p ∧ p <+: d.name ∧ Conv.segment.to conv seg = some 0)
    (hseg : d.name.getLast? = some seg) (his : Conv.segment.is conv seg = true)
    (hes : d.elems = some es) (hall : ∀ o ∈ es, ∃ c, o = some c ∧ E.hasPeriod c = true) (hc : some c ∈ es)
    (hm : E.isMatch r.name c = true) (hp : r.name <+: c.name) (hname : ∀ a b : Crt, a.name = b.name → E.isMatch r.name a = E.isMatch r.name b)
    (hn : (run E (.init t, []) ops).1.cache.now ≤ c.notAfter)
    (hfresh : ∀ e ∈ (run E (.init t, []) ops).1.cache.certs, (run E (.init t, []) ops).1.cache.now ≤ e.removal)
    (hi : int64 ((run E (.init t, []) ops).1.cache.now + life) = true) :
    ∃ c', (step E (run E (.init t, []) ops).1 (.data d)).2 = [.continued r.name c'] := by
  have ht := timed_run (E := E) t ops
  have hs := sorted_run (E := E) t ops
  generalize (run E (.init t, []) ops).1 = s at *
  have key : ∀ z, (z = true → Conv.segment.to conv seg = some 0) → ∃ c', (bundleData E s r z d).2 = [.continued r.name c'] := by
    intro z hz
    unfold bundleData
    rw [hseg]
    dsimp only
    rw [his]
    simp only [Bool.not_true, Bool.false_eq_true, if_false]
    rw [if_neg (by cases z <;> simp at hz ⊢; exact hz)]
    rw [hes]
    dsimp only
    obtain ⟨h1, e, h2, h3, h4⟩ := storeAll_there (E := E) hall hi hfresh hs hc hn
    obtain ⟨k1, k2, -⟩ := storeAll_keeps (E := E) es s.cache hs
    rw [if_pos h1]
    have hfind : ∃ c', ((storeAll E s.cache es).1.findInterest r.name (E.isMatch r.name)).2 = some c' := by
      have he : e ∈ (storeAll E s.cache es).1.refresh.certs := by
        unfold Cache.refresh
        refine List.mem_filter.2 ⟨h2, ?_⟩
        rw [k2]; simp; omega
      have hs' : CSorted (storeAll E s.cache es).1.refresh.certs := List.Pairwise.filter _ k1
      have hpe : r.name <+: e.cert.name := h3 ▸ hp
      have hme : E.isMatch r.name e.cert = true := by rw [hname e.cert c h3]; exact hm
      obtain ⟨c', h, -⟩ := scan_first (m := E.isMatch r.name) (hs'.sublist (lowerBound_sublist _ r.name)) (lowerBound_ge hs' r.name)
        (mem_lowerBound he hpe) hpe hme
      exact ⟨c', h⟩
    obtain ⟨c', hf⟩ := hfind
    rw [hf]
    dsimp only
    have hper : E.hasPeriod c' = true := by
      obtain ⟨e', he', h5⟩ := List.mem_map.1 (found (s := { s with cache := (storeAll E s.cache es).1 }) hf).1
      rcases storeAll_known s.cache es e' he' with h | h
      · rw [← h5]; exact ht _ h
      · rw [← h5]; exact h.2
    unfold goOn
    rw [if_pos hper]
    exact ⟨c', rfl⟩
  rcases hw with hw | ⟨p, hw, hpre, h0⟩
  · simp only [step, hw, if_true]
    exact key false (by simp)
  · simp only [step, hw]
    rw [if_pos (List.isPrefixOf_iff_prefix.2 hpre)]
    exact key true (fun _ => h0)

/-- A certificate in the cache, not expired, answers a request at once. -/
theorem cached_answers {s : St} (hs : CSorted s.cache.certs) (hph : s.phase = .idle) {e : Cert.Entry} (he : e ∈ s.cache.certs)
    (hr : s.cache.now ≤ e.removal) {n : List Comp} (hp : n <+: e.cert.name) (hm : E.isMatch n e.cert = true) :
    ∃ c', (step E s (.fetch n)).2 = [.asked n, .continued n c'] := by
  have he' : e ∈ s.cache.refresh.certs := by
    unfold Cache.refresh
    exact List.mem_filter.2 ⟨he, by simp; omega⟩
  have hs' : CSorted s.cache.refresh.certs := List.Pairwise.filter _ hs
  obtain ⟨c', h, -⟩ := scan_first (m := E.isMatch n) (hs'.sublist (lowerBound_sublist _ n)) (lowerBound_ge hs' n) (mem_lowerBound he' hp) hp hm
  refine ⟨c', ?_⟩
  have hf : (s.cache.findInterest n (E.isMatch n)).2 = some c' := h
  simp only [step, hph, fetch, Req.new, hf]

/-- A certificate that was fetched is used for five minutes, as long as it is valid, for the requests it matches: they are
answered at once, without any Interest. It must not be that a certificate of that name is already in the cache (which then
stays, for its own time). -/
theorem C108_kept (t : Int) (ops : List Op) (d : Pkt) (r : Req) (c : Crt) (t' : Int) (n' : List Comp)
    (hw : (run E (.init t, []) ops).1.phase = .inner r) (hc : d.asCert = some c)
    (hm : E.isMatch r.name c = true) (hp : r.name <+: c.name) (hper : E.hasPeriod c = true)
    (hnew : ∀ e ∈ (run E (.init t, []) ops).1.cache.certs, e.cert.name ≠ c.name)
    (hn : (run E (.init t, []) ops).1.cache.now ≤ c.notAfter)
    (hi : int64 ((run E (.init t, []) ops).1.cache.now + life) = true)
    (h1 : t' ≤ c.notAfter) (h2 : t' ≤ (run E (.init t, []) ops).1.cache.now + 300000000000)
    (hm' : E.isMatch n' c = true) (hp' : n' <+: c.name) :
    ∃ c', (run E (.init t, []) (ops ++ [.data d, .setClock t', .fetch n'])).2 =
      (run E (.init t, []) ops).2 ++ [.continued r.name c] ++ [.asked n', .continued n' c'] := by
  have hs := sorted_run (E := E) t ops
  rw [run_append]
  generalize run E (.init t, []) ops = x at *
  have hstep : step E x.1 (.data d) = ({ x.1 with cache := x.1.cache.insert life c, phase := .idle }, [.continued r.name c]) := by
    simp only [step, hw, hc]
    rw [if_pos (by rw [hm, List.isPrefixOf_iff_prefix.2 hp]; rfl)]
    simp only [goOn, hper, if_true]
  have hins : (x.1.cache.insert life c).certs = insertByName ⟨c, min c.notAfter (x.1.cache.now + life)⟩ x.1.cache.certs := by
    unfold Cache.insert
    rw [if_neg (by omega), if_pos hi]
  have hmem : (⟨c, min c.notAfter (x.1.cache.now + life)⟩ : Cert.Entry) ∈ (x.1.cache.insert life c).certs := by
    rw [hins]
    exact mem_insertByName_new hnew
  obtain ⟨c', h⟩ := cached_answers (E := E) (s := { x.1 with cache := { x.1.cache.insert life c with now := t' }, phase := .idle })
    (insert_sorted hs) rfl hmem (by simp only [life]; omega) hp' hm'
  refine ⟨c', ?_⟩
  simp only [run, hstep]
  rw [show (step E ({ x.1 with cache := x.1.cache.insert life c, phase := .idle } : St) (.setClock t')) =
    ({ x.1 with cache := { x.1.cache.insert life c with now := t' }, phase := .idle }, []) from rfl]
  dsimp only
  rw [h, List.append_nil]

/-- The hypotheses of `C108_kept` can be met. -/
example : (run exEnv (.init 0, []) [.fetch [g 8], .timeout, .data ⟨[g 8, g 1], none, none, some ⟨[g 8, g 1], 1000000000000, 0⟩⟩,
      .setClock 300000000000, .fetch [g 8]]).2 =
    [.asked [g 8], .bundle [g 1, bundleComp, appendNumber0] true, .interest [g 8] none true, .continued [g 8] ⟨[g 8, g 1], 1000000000000, 0⟩,
     .asked [g 8], .continued [g 8] ⟨[g 8, g 1], 1000000000000, 0⟩] := by decide

/-- The hypotheses of `C108_defined_partial` can be met, and a whole validation: the bundle has the certificate asked for; the
next one is not in it, so the second segment is asked for; a timeout leads to the certificate itself. -/
example : (run exEnv (.init 0, []) [.fetch [g 7], .data (exPkt ⟨50, [0]⟩ [some ⟨[g 7, g 1], 1000, 0⟩]), .fetch [g 8], .timeout,
      .data ⟨[g 8, g 1], none, none, some ⟨[g 8, g 1], 1000, 0⟩⟩]).2 =
    [.asked [g 7], .bundle [g 1, bundleComp, appendNumber0] true, .continued [g 7] ⟨[g 7, g 1], 1000, 0⟩,
     .asked [g 8], .bundle [g 1, bundleComp, appendNumber0, g 9, ⟨50, [1]⟩] false, .interest [g 8] none true,
     .continued [g 8] ⟨[g 8, g 1], 1000, 0⟩] := by decide

/-- The face the packet came from is asked as well. -/
example : (run ⟨false, none, .direct false 5, fun n c => n.isPrefixOf c.name, fun _ => true⟩ (.init 0, []) [.fetch [g 7], .nack, .retry]).2 =
    [.asked [g 7], .interest [g 7] (some 5) false, .interest [g 7] none true, .wait 500, .interest [g 7] (some 5) false,
     .interest [g 7] none true] := by decide

/-! ### C109: bundles -/

theorem isSegment_iff (c : Comp) : Conv.segment.is conv c = true ↔ IsSegment c := by
  simp only [Conv.is, conv, Conv.typ, Conv.marker, isNumberWithMarker, isNumber, IsSegment, Bool.true_and, Bool.or_eq_true, Bool.and_eq_true,
    decide_eq_true_eq, List.mem_cons, List.not_mem_nil, or_false, or_assoc]
  constructor
  · rintro (⟨h1, h2, h3⟩ | ⟨h1, h2⟩)
    · exact .inr ⟨h1, by omega, of_decide_eq_true h3⟩
    · exact .inl ⟨of_decide_eq_true h1, by omega⟩
  · rintro (⟨h1, h2⟩ | ⟨h1, h2, h3⟩)
    · exact .inr ⟨decide_eq_true h1, by omega⟩
    · exact .inl ⟨h1, by omega, decide_eq_true h3⟩

theorem isDigest_iff (c : Comp) : (c.type = 1 && c.value.length = 32) = true ↔ IsDigest c := by
  simp [IsDigest]

theorem digest_not_segment {c : Comp} (h : IsDigest c) : ¬ IsSegment c := by
  rintro (⟨h1, -⟩ | ⟨h1, -⟩) <;> rw [h.1] at h1 <;> cases h1

/-- The name without its digest and segment number. -/
def baseOf (n : List Comp) : List Comp :=
  match n.getLast? with
  | none => n
  | some c =>
    if c.type = 1 && c.value.length = 32 then
      match n.dropLast.getLast? with
      | some d => if Conv.segment.is conv d then n.dropLast.dropLast else n.dropLast
      | none => n.dropLast
    else if Conv.segment.is conv c then n.dropLast
    else n

theorem baseOf_base (n : List Comp) : Base n (baseOf n) := by
  rcases List.eq_nil_or_concat n with rfl | ⟨m, c, rfl⟩
  · exact .neither (by simp)
  · unfold baseOf
    simp only [List.concat_eq_append, List.getLast?_append, List.getLast?_singleton, Option.some_or, List.dropLast_concat]
    by_cases hd : IsDigest c
    · rw [if_pos ((isDigest_iff c).2 hd)]
      rcases List.eq_nil_or_concat m with rfl | ⟨k, d, rfl⟩
      · exact .digest (by simp) hd
      · simp only [List.concat_eq_append, List.getLast?_append, List.getLast?_singleton, Option.some_or, List.dropLast_concat]
        by_cases hs : IsSegment d
        · rw [if_pos ((isSegment_iff d).2 hs)]
          rw [List.append_assoc]
          exact .both hs hd
        · rw [if_neg (fun h => hs ((isSegment_iff d).1 h))]
          refine .digest ?_ hd
          intro x s e
          have := List.append_inj' e rfl
          rw [← (List.cons.inj this.2).1]
          exact hs
    · rw [if_neg (fun h => hd ((isDigest_iff c).1 h))]
      by_cases hs : IsSegment c
      · rw [if_pos ((isSegment_iff c).2 hs)]
        exact .segment hs hd
      · rw [if_neg (fun h => hs ((isSegment_iff c).1 h))]
        refine .neither ?_
        intro x s e
        have := List.append_inj' e rfl
        rw [← (List.cons.inj this.2).1]
        exact ⟨hs, hd⟩

theorem snoc_inj {a b : List Comp} {x y : Comp} (h : a ++ [x] = b ++ [y]) : a = b ∧ x = y := by
  have := List.append_inj' h rfl
  exact ⟨this.1, (List.cons.inj this.2).1⟩

theorem base_unique {n b b' : List Comp} (h : Base n b) (h' : Base n b') : b = b' := by
  have assoc : ∀ (b : List Comp) s d, b ++ [s, d] = (b ++ [s]) ++ [d] := by intro b s d; simp
  cases h with
  | @both _ s d h1 h2 =>
    generalize hn : b ++ [s, d] = n at h'
    rw [assoc] at hn
    cases h' with
    | @both _ s' d' _ _ =>
      rw [assoc] at hn
      exact (snoc_inj (snoc_inj hn).1).1
    | @digest _ d' h3 _ => exact absurd h1 (h3 b s (snoc_inj hn).1.symm)
    | @segment _ s' h3 _ => exact absurd ((snoc_inj hn).2 ▸ h3) (digest_not_segment h2)
    | neither h3 => exact absurd h2 (h3 _ _ hn.symm).2
  | @digest _ d h1 h2 =>
    generalize hn : b ++ [d] = n at h'
    cases h' with
    | @both _ s' d' h3 _ =>
      rw [assoc] at hn
      exact absurd h3 (h1 _ _ (snoc_inj hn).1)
    | @digest _ d' _ _ => exact (snoc_inj hn).1
    | @segment _ s' h3 _ => exact (snoc_inj hn).1
    | neither h3 => exact absurd h2 (h3 _ _ hn.symm).2
  | @segment _ s h1 h2 =>
    generalize hn : b ++ [s] = n at h'
    cases h' with
    | @both _ s' d' _ h3 =>
      rw [assoc] at hn
      exact absurd ((snoc_inj hn).2 ▸ h3) h2
    | @digest _ d' _ _ => exact (snoc_inj hn).1
    | @segment _ s' h3 _ => exact (snoc_inj hn).1
    | neither h3 => exact absurd h1 (h3 _ _ hn.symm).1
  | neither h1 =>
    cases h' with
    | @both _ s' d' _ h3 => exact absurd h3 (h1 _ _ (assoc _ _ _)).2
    | @digest _ d' _ h3 => exact absurd h3 (h1 _ _ rfl).2
    | @segment _ s' h3 _ => exact absurd h3 (h1 _ _ rfl).1
    | neither _ => rfl

/-- The bundle is looked for under the name of the packet without its segment number and digest. -/
theorem C109_name (n b : List Comp) : deriveBundleName n = b ++ [bundleComp, appendNumber0] ↔ Base n b := by
  have e : deriveBundleName n = baseOf n ++ [bundleComp, appendNumber0] := rfl
  rw [e]
  constructor
  · intro h
    rw [← List.append_cancel_right h]
    exact baseOf_base n
  · intro h
    rw [base_unique (baseOf_base n) h]

/-- So all segments of an object have the same bundle. -/
theorem C109_shared (n : List Comp) (s s' : Comp) (h : IsSegment s) (h' : IsSegment s') :
    deriveBundleName (n ++ [s]) = deriveBundleName (n ++ [s']) := by
  rw [(C109_name (n ++ [s]) n).2 (.segment h (fun hd => digest_not_segment hd h)),
    (C109_name (n ++ [s']) n).2 (.segment h' (fun hd => digest_not_segment hd h'))]

/-- Interests with CanBePrefix are for the bundle of the packet validated. -/
theorem C109_first (t : Int) (ops : List Op) (n : List Comp) (h : .bundle n true ∈ (run E (.init t, []) ops).2) :
    ∃ dn b, E.data = some dn ∧ Base dn b ∧ n = b ++ [bundleComp, appendNumber0] := by
  have key : ∀ n, .bundle n true ∈ (run E (.init t, []) ops).2 → ∃ dn, E.data = some dn ∧ n = deriveBundleName dn := by
    clear h
    refine Replay.snocInd (motive := fun ops => ∀ n, .bundle n true ∈ (run E (.init t, []) ops).2 →
      ∃ dn, E.data = some dn ∧ n = deriveBundleName dn) ops ?_ ?_
    · intro n h; simp [run] at h
    · intro ops op ih
      rw [run_snoc]
      have hst := step_res (E := E) (run E (.init t, []) ops).1 op
      generalize step E (run E (.init t, []) ops).1 op = x at hst ⊢
      generalize (run E (.init t, []) ops) = y at ih hst ⊢
      intro n h
      rcases List.mem_append.1 h with h | h
      · exact ih n h
      · have res : ∀ {r b new x}, Res E y.1 r b new x → .bundle n true ∉ x.2 := by
          intro r b new x h
          cases h with
          | sent a b c d => 
            intro hm
            have := (sends_facts d).2.1
            simp only [bundles, List.countP_eq_zero] at this
            exact absurd rfl (this _ hm)
          | _ => simp
        cases hst with
        | fetch a b c => exact absurd h (by have := res c; simpa using this)
        | @first s' n' dn a b c d e f g h' =>
          simp at h
          exact ⟨dn, c, h⟩
        | data a b c => exact absurd h (res c)
        | fallback a b c => exact absurd h (res c)
        | again a b c d => exact absurd h (res d)
        | retry a b c => exact absurd h (res c)
        | _ => simp at h
  obtain ⟨dn, h1, h2⟩ := key n h
  exact ⟨dn, baseOf dn, h1, baseOf_base dn, h2⟩

/-- No segment beyond a FinalBlockId is asked for. -/
theorem C109_final (s : St) (op : Op) (n : List Comp) (f : Comp) (h : .bundle n false ∈ (step E s op).2) (hf : s.final = some f) :
    ∃ N seg, n = N ++ [seg] ∧ ¬ CompLt f seg := by
  have res : ∀ {r b new x}, Res E s r b new x → .bundle n false ∈ x.2 → ∃ N seg, n = N ++ [seg] ∧ ¬ CompLt f seg := by
    intro r b new x h hm
    cases h with
    | sent a b c d =>
      have := (sends_facts d).2.1
      simp only [bundles, List.countP_eq_zero] at this
      exact absurd rfl (this _ hm)
    | @next s' full c a1 a2 a3 a4 a5 a6 =>
      simp at hm
      exact ⟨full, c, hm, a4 f hf⟩
    | _ => simp at hm
  have hst := step_res (E := E) s op
  generalize step E s op = x at hst h
  cases hst with
  | fetch a b c => exact res c (by simpa using h)
  | data a b c => exact res c h
  | fallback a b c => exact res c h
  | again a b c d => exact res d h
  | retry a b c => exact res c h
  | _ => simp at h

/-! ### C109: which segment is next -/

theorem goOn_tag (s : St) (r : Req) (c : Crt) : (goOn E s r c).1.tag = s.tag ∧ ∀ n p, .bundle n p ∉ (goOn E s r c).2 := by
  unfold goOn; split <;> simp

theorem innerDoFetch_tag (s : St) (r : Req) : (innerDoFetch E s r).1.tag = s.tag ∧ ∀ n p, .bundle n p ∉ (innerDoFetch E s r).2 := by
  unfold innerDoFetch; (repeat' split) <;> simp

theorem innerFetch_tag (s : St) (r : Req) : (innerFetch E s r).1.tag = s.tag ∧ ∀ n p, .bundle n p ∉ (innerFetch E s r).2 := by
  unfold innerFetch
  dsimp only
  split
  · exact goOn_tag _ _ _
  · exact innerDoFetch_tag _ _

theorem fetchNext_tag (s : St) (r : Req) (full : List Comp) (c : Comp) : (fetchNext E s r full c).1.tag = s.tag ∧
    ∀ n, .bundle n false ∈ (fetchNext E s r full c).2 → n = full.dropLast ++ [c] := by
  unfold fetchNext
  dsimp only
  have h := innerFetch_tag (E := E) s r
  cases s.final with
  | none => simp
  | some f =>
    dsimp only
    split
    · exact ⟨h.1, fun n hn => absurd hn (h.2 n false)⟩
    · simp

theorem segment_zero : (Conv.segment.from conv 0).getD ⟨8, []⟩ = segment 0 := by decide

theorem bundleData_tag (s : St) (r : Req) (z : Bool) (d : Pkt) :
    ((bundleData E s r z d).1.tag = s.tag ∨ (bundleData E s r z d).1.tag = some d.name ∧ ∃ N c, d.name = N ++ [c] ∧ IsSegment c) ∧
    ∀ n, .bundle n false ∈ (bundleData E s r z d).2 → ∃ N, n = N ++ [segment 0] := by
  unfold bundleData
  cases hl : d.name.getLast? with
  | none => simp
  | some cur =>
    dsimp only
    split
    · have h := innerFetch_tag (E := E) s r
      exact ⟨.inl h.1, fun n hn => absurd hn (h.2 n false)⟩
    · rename_i hseg
      split
      · have h := fetchNext_tag (E := E) s r d.name ((Conv.segment.from conv 0).getD ⟨8, []⟩)
        rw [segment_zero] at h ⊢
        exact ⟨.inl h.1, fun n hn => ⟨_, h.2 n hn⟩⟩
      · have key : ∃ N c, d.name = N ++ [c] ∧ IsSegment c := by
          obtain ⟨N, hN⟩ := List.getLast?_eq_some_iff.1 hl
          exact ⟨N, cur, hN, (isSegment_iff cur).1 (by simpa using hseg)⟩
        split
        · exact ⟨.inr ⟨rfl, key⟩, by simp⟩
        · split
          · split
            · have h := goOn_tag (E := E)
              refine ⟨.inr ⟨(h _ _ _).1, key⟩, fun n hn => absurd hn ((h _ _ _).2 n false)⟩
            · exact ⟨.inr ⟨rfl, key⟩, by simp⟩
          · exact ⟨.inr ⟨rfl, key⟩, by simp⟩

theorem fetch_tag (s : St) (r : Req) : (fetch E s r).1.tag = s.tag ∧
    ∀ n, .bundle n false ∈ (fetch E s r).2 → ∃ N c, s.tag = some (N ++ [c]) ∧ n = N ++ [c.successor] := by
  unfold fetch
  dsimp only
  split
  · simp
  · unfold doFetch
    split
    · split
      · have h := innerFetch_tag (E := E)
        exact ⟨(h _ _).1, fun n hn => absurd hn ((h _ _).2 n false)⟩
      · dsimp only
        cases ht : s.tag with
        | none =>
          dsimp only
          split
          · have h := innerFetch_tag (E := E)
            exact ⟨(h _ _).1, fun n hn => absurd hn ((h _ _).2 n false)⟩
          · simp [fetchFirst, ht]
        | some full =>
          dsimp only
          cases hl : full.getLast? with
          | none =>
            have h := innerFetch_tag (E := E)
            exact ⟨(h _ _).1, fun n hn => absurd hn ((h _ _).2 n false)⟩
          | some c =>
            dsimp only
            obtain ⟨N, rfl⟩ := List.getLast?_eq_some_iff.1 hl
            have h := fetchNext_tag (E := E)
            refine ⟨(h _ _ _ _).1, fun n hn => ⟨N, c, rfl, ?_⟩⟩
            rw [(h _ _ _ _).2 n hn, List.dropLast_concat]
    · have h := innerDoFetch_tag (E := E)
      exact ⟨(h _ _).1, fun n hn => absurd hn ((h _ _).2 n false)⟩

/-- The tag is the name of a segment that came, and the Interests for a segment are for the first, or follow one. -/
structure TagInv (ops : List Op) (x : St × List Obs) : Prop where
  tag : ∀ full, x.1.tag = some full → (∃ d, .data d ∈ ops ∧ d.name = full) ∧ ∃ N c, full = N ++ [c] ∧ IsSegment c
  sent : ∀ n, .bundle n false ∈ x.2 → (∃ N, n = N ++ [segment 0]) ∨
    ∃ N c d, .data d ∈ ops ∧ d.name = N ++ [c] ∧ IsSegment c ∧ n = N ++ [c.successor]

theorem step_tag (s : St) (op : Op) :
    ((step E s op).1.tag = s.tag ∨ ∃ d, op = .data d ∧ (step E s op).1.tag = some d.name ∧ ∃ N c, d.name = N ++ [c] ∧ IsSegment c) ∧
    ∀ n, .bundle n false ∈ (step E s op).2 → (∃ N, n = N ++ [segment 0]) ∨ ∃ N c, s.tag = some (N ++ [c]) ∧ n = N ++ [c.successor] := by
  have hin : ∀ s' r, s'.tag = s.tag → ((innerFetch E s' r).1.tag = s.tag ∨ ∃ d, op = .data d ∧ (innerFetch E s' r).1.tag = some d.name ∧
      ∃ N c, d.name = N ++ [c] ∧ IsSegment c) ∧ ∀ n, .bundle n false ∈ (innerFetch E s' r).2 → (∃ N, n = N ++ [segment 0]) ∨
      ∃ N c, s.tag = some (N ++ [c]) ∧ n = N ++ [c.successor] := by
    intro s' r e
    have h := innerFetch_tag (E := E) s' r
    exact ⟨.inl (h.1.trans e), fun n hn => absurd hn (h.2 n false)⟩
  cases op with
  | fetch n =>
    simp only [step]
    cases hp : s.phase with
    | idle =>
      have h := fetch_tag (E := E) s (.new n)
      refine ⟨.inl h.1, fun m hm => .inr (h.2 m (by simpa using hm))⟩
    | _ => simp
  | data d =>
    simp only [step]
    have hb : ∀ r z, ((bundleData E s r z d).1.tag = s.tag ∨ ∃ d', Op.data d = .data d' ∧ (bundleData E s r z d).1.tag = some d'.name ∧
        ∃ N c, d'.name = N ++ [c] ∧ IsSegment c) ∧ ∀ n, .bundle n false ∈ (bundleData E s r z d).2 → (∃ N, n = N ++ [segment 0]) ∨
        ∃ N c, s.tag = some (N ++ [c]) ∧ n = N ++ [c.successor] := by
      intro r z
      have h := bundleData_tag (E := E) s r z d
      refine ⟨?_, fun n hn => .inl (h.2 n hn)⟩
      rcases h.1 with h | h
      · exact .inl h
      · exact .inr ⟨d, rfl, h⟩
    cases hp : s.phase with
    | first r p =>
      dsimp only
      split
      · exact hb r true
      · simp
    | segment r p =>
      dsimp only
      split
      · exact hb r false
      · simp
    | inner r =>
      dsimp only
      split
      · split
        · have h := goOn_tag (E := E) s r
          exact ⟨.inl (h _).1, fun n hn => absurd hn ((h _).2 n false)⟩
        · simp
      · split <;> simp
    | _ => simp
  | nack =>
    simp only [step]
    cases hp : s.phase with
    | first r p => exact hin s r rfl
    | segment r p => exact hin s r rfl
    | inner r => dsimp only; split <;> simp
    | _ => simp
  | timeout =>
    simp only [step]
    cases hp : s.phase with
    | first r p => exact hin s r rfl
    | segment r p => exact hin s r rfl
    | inner r =>
      dsimp only
      split
      · simp
      · exact hin s _ rfl
    | _ => simp
  | retry =>
    simp only [step]
    cases hp : s.phase with
    | backoff r => exact hin s r rfl
    | _ => simp
  | other c => simp only [step]; split <;> simp
  | setClock t => simp [step]

theorem tag_run (t : Int) (ops : List Op) : TagInv ops (run E (.init t, []) ops) := by
  refine Replay.snocInd (motive := fun ops => TagInv ops (run E (.init t, []) ops)) ops ?_ ?_
  · exact ⟨by simp [run, St.init], by simp [run]⟩
  · intro ops op ih
    rw [run_snoc]
    have hst := step_tag (E := E) (run E (.init t, []) ops).1 op
    generalize step E (run E (.init t, []) ops).1 op = x at hst ⊢
    generalize (run E (.init t, []) ops) = y at ih hst ⊢
    constructor
    · intro full hf
      dsimp only at hf
      rcases hst.1 with h | ⟨d, rfl, h, h'⟩
      · obtain ⟨⟨d, h1, h2⟩, h3⟩ := ih.tag full (h ▸ hf)
        exact ⟨⟨d, List.mem_append.2 (.inl h1), h2⟩, h3⟩
      · rw [h] at hf
        cases hf
        exact ⟨⟨d, by simp, rfl⟩, h'⟩
    · intro n hn
      rcases List.mem_append.1 hn with hn | hn
      · rcases ih.sent n hn with h | ⟨N, c, d, h1, h2⟩
        · exact .inl h
        · exact .inr ⟨N, c, d, List.mem_append.2 (.inl h1), h2⟩
      · rcases hst.2 n hn with h | ⟨N, c, h1, h2⟩
        · exact .inl h
        · obtain ⟨⟨d, h3, h4⟩, N', c', h5, h6⟩ := ih.tag _ h1
          have := snoc_inj h5
          rw [← this.2] at h6
          exact .inr ⟨N, c, d, List.mem_append.2 (.inl h3), h4, h6, h2⟩

/-- The full claim: Interests for a segment are for the first segment, or for the one after a segment that came. -/
def C109_next_claim : Prop := ∀ (E : Env) (t : Int) (ops : List Op) (n : List Comp), .bundle n false ∈ (run E (.init t, []) ops).2 →
  (∃ N, n = N ++ [segment 0]) ∨ ∃ N k d, .data d ∈ ops ∧ d.name = N ++ [segment k] ∧ n = N ++ [segment (k + 1)]

/-- 256 requests, each answered by the next segment, and one more. The certificate has expired from the cache each time. -/
def longOps : List Op :=
  (List.range 256).flatMap (fun i => [.fetch [g 7], .data (exPkt (segment i) [some ⟨[g 7, g 1], 1000000000000000, 0⟩]),
    .setClock (Int.ofNat (i + 1) * 1000000000000)]) ++ [.fetch [g 7]]

/-- The segment after 255 is asked for as the successor of its name component, two zero octets, which is not the component of 256;
a producer will not have it, and certificates from there on are not found in the bundle. -/
theorem C109_next_counterexample : ¬ C109_next_claim := by
  intro h
  have := h exEnv 0 longOps [g 1, bundleComp, appendNumber0, g 9, ⟨50, [0, 0]⟩] (by decide +kernel)
  rcases this with ⟨N, h⟩ | ⟨N, k, d, -, -, h⟩
  · have := (snoc_inj (a := [g 1, bundleComp, appendNumber0, g 9]) h).2
    exact absurd this (by decide)
  · have := (snoc_inj (a := [g 1, bundleComp, appendNumber0, g 9]) h).2
    have hv : [0, 0] = Tlv.writeNonNegativeInteger (k + 1) := congrArg Comp.value this
    have hl := congrArg List.length hv
    unfold Tlv.writeNonNegativeInteger at hv hl
    split at hl
    · simp at hl
    · split at hl
      · rename_i h1 h2
        rw [if_neg h1, if_pos h2] at hv
        have hb := congrArg Tlv.beNat hv
        rw [Tlv.beNat_beBytes_of_lt (by omega)] at hb
        exact absurd hb (by simp [Tlv.beNat])
      · split at hl <;> simp at hl

theorem segment_successor (k : Nat) (hk : k + 1 < 2 ^ 64) (h1 : k + 1 ≠ 2 ^ 8) (h2 : k + 1 ≠ 2 ^ 16) (h3 : k + 1 ≠ 2 ^ 32) :
    (segment k).successor = segment (k + 1) := by
  have hs : (segment k).successor = ⟨50, (successorImpl (Tlv.writeNonNegativeInteger k)).2⟩ := rfl
  rw [hs]
  unfold segment
  congr 1
  have hsp := successorImpl_spec (Tlv.writeNonNegativeInteger k)
  have hval : ∀ m, m < 2 ^ 64 → Tlv.beNat (Tlv.writeNonNegativeInteger m) = m ∧ (Tlv.writeNonNegativeInteger m).length =
      (if m ≤ 255 then 1 else if m ≤ 65535 then 2 else if m ≤ 4294967295 then 4 else 8) := by
    intro m hm
    unfold Tlv.writeNonNegativeInteger
    split
    · rename_i h
      refine ⟨?_, rfl⟩
      show 0 * 256 + (UInt8.ofNat m).toNat = m
      rw [UInt8.toNat_ofNat']
      omega
    · split
      · exact ⟨Tlv.beNat_beBytes_of_lt (by omega), Tlv.beBytes_length _ _⟩
      · split
        · exact ⟨Tlv.beNat_beBytes_of_lt (by omega), Tlv.beBytes_length _ _⟩
        · exact ⟨Tlv.beNat_beBytes_of_lt (by omega), Tlv.beBytes_length _ _⟩
  obtain ⟨a1, a2⟩ := hval k (by omega)
  obtain ⟨b1, b2⟩ := hval (k + 1) hk
  have hlen : (Tlv.writeNonNegativeInteger k).length = (Tlv.writeNonNegativeInteger (k + 1)).length := by
    rw [a2, b2]
    (repeat' split) <;> omega
  split at hsp
  · exfalso
    obtain ⟨c1, -, -⟩ := hsp
    rw [a1, a2] at c1
    split at c1
    · omega
    · split at c1
      · omega
      · split at c1 <;> omega
  · exact Tlv.beNat_inj (hsp.1.trans hlen) (by rw [hsp.2, a1, b1])

/-- The segments asked for are the first, or follow one that came: the name component is the least greater than that of the
segment that came; and if that was segment `k` in the typed convention, it is segment `k+1`, unless the numbers `k` and `k+1` have
encodings of different lengths, see `C109_next_counterexample`. -/
theorem C109_next_partial (t : Int) (ops : List Op) (n : List Comp) (h : .bundle n false ∈ (run E (.init t, []) ops).2) :
    (∃ N, n = N ++ [segment 0]) ∨
    ∃ N c c' d, .data d ∈ ops ∧ d.name = N ++ [c] ∧ IsSegment c ∧ n = N ++ [c'] ∧
      CompLt c c' ∧ (∀ e, ValidComp e → CompLt c e → e = c' ∨ CompLt c' e) ∧
      ∀ k, c = segment k → k + 1 < 2 ^ 64 → k + 1 ≠ 2 ^ 8 → k + 1 ≠ 2 ^ 16 → k + 1 ≠ 2 ^ 32 → c' = segment (k + 1) := by
  rcases (tag_run (E := E) t ops).sent n h with h | ⟨N, c, d, h1, h2, h3, h4⟩
  · exact .inl h
  · have hv : ValidComp c := by
      rcases h3 with ⟨h, -⟩ | ⟨h, -⟩
      · unfold ValidComp; rw [h]; simp
      · unfold ValidComp; rw [h]; simp
    obtain ⟨-, p1, p2⟩ := C13_component c hv
    exact .inr ⟨N, c, c.successor, d, h1, h2, h3, h4, p1, p2, fun k hk a b c e => hk ▸ segment_successor k a b c e⟩

/-- After a segment that was of use, the next request that the cache cannot answer asks for the segment after it, unless that
is beyond the FinalBlockId; then for the certificate. -/
theorem C109_progress (dn : List Comp) (hb : E.bundle = true) (hd : E.data = some dn) (s : St) (r : Req) (d : Pkt) (N : List Comp) (c : Comp)
    (f : Option Comp) (cert : Crt) (n' : List Comp)
    (hw : s.phase = .segment r d.name ∨ ∃ p, s.phase = .first r p ∧ p <+: d.name)
    (hstep : (step E s (.data d)).2 = [.continued r.name cert]) (hname : d.name = N ++ [c]) (hseg : IsSegment c)
    (h0 : (∃ p, s.phase = .first r p) → Conv.segment.to conv c = some 0) (hf : d.final = f)
    (hmiss : ∀ e ∈ (step E s (.data d)).1.cache.certs, n' <+: e.cert.name → E.isMatch n' e.cert = false) :
    ∃ log, (step E (step E s (.data d)).1 (.fetch n')).2 = .asked n' :: log ∧
      (f = none → s.final = none → log = [.bundle (N ++ [c.successor]) false]) ∧
      ∀ F, f = some F → (¬ CompLt F c.successor → log = [.bundle (N ++ [c.successor]) false]) ∧
        (CompLt F c.successor → log = (innerDoFetch E (step E s (.data d)).1 (.new n')).2) := by
  have key : ∀ z, (z = true → Conv.segment.to conv c = some 0) → (bundleData E s r z d).2 = [.continued r.name cert] →
      (bundleData E s r z d).1.phase = .idle ∧ (bundleData E s r z d).1.tag = some d.name ∧
      (bundleData E s r z d).1.final = (if d.final.isSome then d.final else s.final) := by
    intro z hz
    unfold bundleData
    rw [hname, List.getLast?_concat]
    dsimp only
    rw [(isSegment_iff c).2 hseg]
    simp only [Bool.not_true, Bool.false_eq_true, if_false]
    rw [if_neg (by cases z <;> simp at hz ⊢; exact hz)]
    cases d.elems with
    | none => simp
    | some es =>
      dsimp only
      split
      · split
        · unfold goOn
          split <;> simp
        · simp
      · simp
  have hsegc := (isSegment_iff c).2 hseg
  obtain ⟨k1, k2, k3⟩ : (step E s (.data d)).1.phase = .idle ∧ (step E s (.data d)).1.tag = some d.name ∧
      (step E s (.data d)).1.final = (if d.final.isSome then d.final else s.final) := by
    rcases hw with hw | ⟨p, hw, hp⟩
    · simp only [step, hw, if_true] at hstep ⊢
      exact key false (by simp) hstep
    · simp only [step, hw] at hstep ⊢
      rw [if_pos (List.isPrefixOf_iff_prefix.2 hp)] at hstep ⊢
      exact key true (fun _ => h0 ⟨p, hw⟩) hstep
  generalize (step E s (.data d)).1 = s1 at *
  have hnone : ∀ cc : Cache, (∀ e ∈ cc.certs, n' <+: e.cert.name → E.isMatch n' e.cert = false) → (cc.findInterest n' (E.isMatch n')).2 = none := by
    intro cc h
    cases hx : (cc.findInterest n' (E.isMatch n')).2 with
    | none => rfl
    | some c' =>
      obtain ⟨h1, h2, h3, h4⟩ := found (s := { s1 with cache := cc }) hx
      obtain ⟨e, he, rfl⟩ := List.mem_map.1 h1
      rw [h e he h3] at h4
      cases h4
  have hfetch : (step E s1 (.fetch n')).2 = .asked n' ::
      (fetchNext E { s1 with cache := s1.cache.refresh } (.new n') (N ++ [c]) c.successor).2 := by
    have hr : (s1.cache.findInterest n' (E.isMatch n')).1 = s1.cache.refresh := rfl
    simp only [step, k1, fetch, Req.new, hnone _ hmiss, doFetch, hb, hd, k2, hname, List.getLast?_concat, if_true, hr]
  have hrm : ∀ e ∈ s1.cache.refresh.certs, n' <+: e.cert.name → E.isMatch n' e.cert = false :=
    fun e he => hmiss e (List.mem_filter.1 he).1
  refine ⟨_, hfetch, ?_, ?_⟩
  · intro hfn hsn
    rw [hf, hfn] at k3
    simp [hsn] at k3
    unfold fetchNext
    simp [k3]
  · intro F hF
    rw [hf, hF] at k3
    simp at k3
    unfold fetchNext
    simp only [k3, List.dropLast_concat]
    constructor
    · intro h
      rw [if_neg (fun hx => h ((compLt_iff _ _).1 hx))]
    · intro h
      rw [if_pos ((compLt_iff _ _).2 h)]
      unfold innerFetch
      simp only [Req.new, hnone _ hrm]
      unfold innerDoFetch
      (repeat' split) <;> rfl

/-! ### C110: the schedule of retries -/

/-- Nothing in the cache matches the request. -/
def Miss (E : Env) (s : St) (n : List Comp) : Prop := ∀ e ∈ s.cache.certs, n <+: e.cert.name → E.isMatch n e.cert = false

theorem miss_none {s : St} {n : List Comp} (h : Miss E s n) : (s.cache.findInterest n (E.isMatch n)).2 = none := by
  cases hx : (s.cache.findInterest n (E.isMatch n)).2 with
  | none => rfl
  | some c' =>
    obtain ⟨h1, h2, h3, h4⟩ := found hx
    obtain ⟨e, he, rfl⟩ := List.mem_map.1 h1
    rw [h e he h3] at h4
    cases h4

theorem miss_fetch {s : St} {r : Req} (h : Miss E s r.name) (hi : E.inner = .network) :
    ∃ s', innerFetch E s r = (s', [.interest r.name none true]) ∧ s'.phase = .inner r ∧ Miss E s' r.name := by
  refine ⟨{ s with cache := s.cache.refresh, phase := .inner r }, ?_, rfl, fun e he => h e (List.mem_filter.1 he).1⟩
  have hr : (s.cache.findInterest r.name (E.isMatch r.name)).1 = s.cache.refresh := rfl
  simp only [innerFetch, miss_none h, innerDoFetch, hi, hr]

/-- A request answered with Nacks only: four Interests, with waits of 500, 1000 and 2000 ms between them, then a failure. -/
theorem C110_nacks (s : St) (n : List Comp) (log : List Obs) (hb : E.bundle = false) (hi : E.inner = .network) (hp : s.phase = .idle)
    (hm : ∀ e ∈ s.cache.certs, n <+: e.cert.name → E.isMatch n e.cert = false) :
    (run E (s, log) [.fetch n, .nack, .retry, .nack, .retry, .nack, .retry, .nack]).2 = log ++
      [.asked n, .interest n none true, .wait 500, .interest n none true, .wait 1000, .interest n none true, .wait 2000,
       .interest n none true, .failed n] ∧
    (run E (s, log) [.fetch n, .nack, .retry, .nack, .retry, .nack, .retry, .nack]).1.phase = .idle := by
  have h0 : Miss E s n := hm
  have hr : (s.cache.findInterest n (E.isMatch n)).1 = s.cache.refresh := rfl
  have e0 : step E s (.fetch n) = ({ s with cache := s.cache.refresh, phase := .inner (.new n) }, [.asked n, .interest n none true]) := by
    simp only [step, hp, fetch, Req.new, miss_none h0, doFetch, hb, Bool.false_eq_true, if_false, innerDoFetch, hi, hr]
  have nack : ∀ (x : St) k w, x.phase = .inner ⟨n, k + 1, w⟩ → Miss E x n →
      step E x .nack = ({ x with phase := .backoff ⟨n, k, w * 2⟩ }, [.wait w]) := by
    intro x k w h _
    simp only [step, h]
  have retry : ∀ (x : St) k w, x.phase = .backoff ⟨n, k, w⟩ → Miss E x n →
      ∃ x', step E x .retry = (x', [.interest n none true]) ∧ x'.phase = .inner ⟨n, k, w⟩ ∧ Miss E x' n := by
    intro x k w h hx
    obtain ⟨x', h1, h2, h3⟩ := miss_fetch (r := ⟨n, k, w⟩) hx hi
    exact ⟨x', by simp only [step, h]; exact h1, h2, h3⟩
  have h1 : Miss E ({ s with cache := s.cache.refresh, phase := .inner (.new n) } : St) n := fun e he => h0 e (List.mem_filter.1 he).1
  have p1 : ({ s with cache := s.cache.refresh, phase := .inner (.new n) } : St).phase = .inner ⟨n, 3, 500⟩ := rfl
  simp only [run, e0]
  generalize ({ s with cache := s.cache.refresh, phase := .inner (.new n) } : St) = s1 at h1 p1 ⊢
  obtain ⟨s2, a1, a2, a3⟩ := retry { s1 with phase := .backoff ⟨n, 2, 500 * 2⟩ } _ _ rfl h1
  obtain ⟨s3, b1, b2, b3⟩ := retry { s2 with phase := .backoff ⟨n, 1, 500 * 2 * 2⟩ } _ _ rfl a3
  obtain ⟨s4, c1, c2, c3⟩ := retry { s3 with phase := .backoff ⟨n, 0, 500 * 2 * 2 * 2⟩ } _ _ rfl b3
  have last : step E s4 .nack = ({ s4 with phase := .idle }, [.failed n]) := by simp only [step, c2]
  rw [nack s1 _ _ p1 h1]
  dsimp only
  rw [a1]
  dsimp only
  rw [nack s2 _ _ a2 a3]
  dsimp only
  rw [b1]
  dsimp only
  rw [nack s3 _ _ b2 b3]
  dsimp only
  rw [c1]
  dsimp only
  rw [last]
  simp

/-- A request answered with timeouts only: four Interests, then a failure. -/
theorem C110_timeouts (s : St) (n : List Comp) (log : List Obs) (hb : E.bundle = false) (hi : E.inner = .network) (hp : s.phase = .idle)
    (hm : ∀ e ∈ s.cache.certs, n <+: e.cert.name → E.isMatch n e.cert = false) :
    (run E (s, log) [.fetch n, .timeout, .timeout, .timeout, .timeout]).2 = log ++
      [.asked n, .interest n none true, .interest n none true, .interest n none true, .interest n none true, .failed n] ∧
    (run E (s, log) [.fetch n, .timeout, .timeout, .timeout, .timeout]).1.phase = .idle := by
  have h0 : Miss E s n := hm
  have hr : (s.cache.findInterest n (E.isMatch n)).1 = s.cache.refresh := rfl
  have e0 : step E s (.fetch n) = ({ s with cache := s.cache.refresh, phase := .inner (.new n) }, [.asked n, .interest n none true]) := by
    simp only [step, hp, fetch, Req.new, miss_none h0, doFetch, hb, Bool.false_eq_true, if_false, innerDoFetch, hi, hr]
  have again : ∀ (x : St) k w, x.phase = .inner ⟨n, k + 1, w⟩ → Miss E x n →
      ∃ x', step E x .timeout = (x', [.interest n none true]) ∧ x'.phase = .inner ⟨n, k, w⟩ ∧ Miss E x' n := by
    intro x k w h hx
    obtain ⟨x', h1, h2, h3⟩ := miss_fetch (r := ⟨n, k, w⟩) hx hi
    exact ⟨x', by simp only [step, h]; exact h1, h2, h3⟩
  have h1 : Miss E ({ s with cache := s.cache.refresh, phase := .inner (.new n) } : St) n := fun e he => h0 e (List.mem_filter.1 he).1
  have p1 : ({ s with cache := s.cache.refresh, phase := .inner (.new n) } : St).phase = .inner ⟨n, 3, 500⟩ := rfl
  simp only [run, e0]
  generalize ({ s with cache := s.cache.refresh, phase := .inner (.new n) } : St) = s1 at h1 p1 ⊢
  obtain ⟨s2, a1, a2, a3⟩ := again s1 _ _ p1 h1
  obtain ⟨s3, b1, b2, b3⟩ := again s2 _ _ a2 a3
  obtain ⟨s4, c1, c2, c3⟩ := again s3 _ _ b2 b3
  have last : step E s4 .timeout = ({ s4 with phase := .idle }, [.failed n]) := by simp only [step, c2]
  simp [a1, b1, c1, last]

/-- The hypotheses of `C110_nacks` and `C110_timeouts` can be met. -/
example : ∀ e ∈ (St.init 0).cache.certs, [g 1] <+: e.cert.name → exEnv.isMatch [g 1] e.cert = false := by decide

end Ndn.Fetcher
