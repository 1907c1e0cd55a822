import Verif.Net.Props
namespace Ndn.Net
open Ndn.Net.Spec

variable {A : Type}

theorem findSub_some {pat : Bytes} : ∀ {s : Bytes} {n : Nat}, findSub pat s = some n →
    ∃ u v, s = u ++ pat ++ v ∧ u.length = n := by
  intro s
  induction s with
  | nil =>
    intro n h
    simp only [findSub] at h
    split at h
    · rename_i hp
      subst hp
      injection h with h
      subst h
      exact ⟨[], [], rfl, rfl⟩
    · simp at h
  | cons c s ih =>
    intro n h
    simp only [findSub] at h
    split at h
    · rename_i hp
      rw [List.isPrefixOf_iff_prefix] at hp
      obtain ⟨v, hv⟩ := hp
      injection h with h
      subst h
      exact ⟨[], v, by simpa using hv.symm, rfl⟩
    · rw [Option.map_eq_some_iff] at h
      obtain ⟨k, hk, rfl⟩ := h
      obtain ⟨u, v, rfl, rfl⟩ := ih hk
      exact ⟨c :: u, v, by simp, rfl⟩

theorem unescapeHost_no_pct {h : Bytes} (hh : ch '%' ∉ h) : unescapeHost h = h := by
  unfold unescapeHost
  split
  · rename_i pos hp
    obtain ⟨u, v, rfl, -⟩ := findSub_some hp
    simp at hh
  · rfl

theorem unescapeHost_zone {x z : Bytes} (hx : ch '%' ∉ x) (hz : ch '%' ∉ z)
    (h25 : ¬ ∃ w, w ≠ [] ∧ z = ch '2' :: ch '5' :: w) : unescapeHost (x ++ ch '%' :: z) = x ++ ch '%' :: z := by
  unfold unescapeHost
  split
  · rename_i pos hp
    obtain ⟨u, v, he, hl⟩ := findSub_some hp
    have hu : ch '%' ∉ u := by
      intro hm
      obtain ⟨u₁, u₂, rfl⟩ := List.append_of_mem hm
      simp only [List.append_assoc, List.cons_append] at he
      have h1 := last_split (x := ch '%') (a := x) (b := z) (a' := u₁ ++ ch '%' :: u₂) (b' := ch '2' :: ch '5' :: v)
        (by rw [he]; simp) hz (by
          intro hm
          have : (x ++ ch '%' :: z).count (ch '%') = 1 := by
            rw [List.count_append, List.count_cons_self, List.count_eq_zero_of_not_mem hx, List.count_eq_zero_of_not_mem hz]
          rw [he, List.count_append, List.count_cons_self, List.count_append, List.count_cons_self] at this
          omega)
      rw [h1.1] at hx
      simp at hx
    simp only [List.append_assoc, List.cons_append, List.nil_append] at he
    obtain ⟨rfl, rfl⟩ := first_split he hx hu
    have hv : v = [] := by
      cases v with
      | nil => rfl
      | cons y v => exact absurd ⟨y :: v, by simp, rfl⟩ h25
    subst hv
    rw [if_neg]
    simp
    omega
  · rfl

theorem unescape_plain (ip : Ip A) (hip : IpOk ip) (a : A) (ha : Plain ip a) : unescapeHost (ip.text a) = ip.text a := by
  rcases ha with ha | ⟨-, ha⟩ | ⟨-, x, z, he, h1, h2, h3⟩
  · apply unescapeHost_no_pct
    intro hm
    exact absurd ((dotted_chars (hip.v4 a ha)).2 _ hm) (by simp only [Digit]; decide)
  · apply unescapeHost_no_pct
    intro hm
    exact (hexchar_ne (ha.2 _ hm)).1 rfl
  · rw [he]
    exact unescapeHost_zone (fun hm => (hexchar_ne (h1.2 _ hm)).1 rfl) (fun hm => (h2.2 _ hm).2.2.2 rfl) h3

theorem splitPct_no {s : Bytes} (h : ch '%' ∉ s) : splitPct s = [s] := by
  induction s with
  | nil => rfl
  | cons c s ih =>
    simp only [List.mem_cons, not_or] at h
    simp only [splitPct]
    rw [if_neg (fun e => h.1 e.symm), ih h.2]

theorem splitPct_append {x s : Bytes} (h : ch '%' ∉ x) : splitPct (x ++ ch '%' :: s) = x :: splitPct s := by
  induction x with
  | nil => simp [splitPct]
  | cons c x ih =>
    simp only [List.mem_cons, not_or] at h
    simp only [List.cons_append, splitPct]
    rw [if_neg (fun e => h.1 e.symm), ih h.2]

theorem splitPct_ne (s : Bytes) : splitPct s ≠ [] := by
  cases s with
  | nil => simp [splitPct]
  | cons c s =>
    simp only [splitPct]
    split
    · simp
    · split <;> simp

theorem splitPct_one {s x : Bytes} (h : splitPct s = [x]) : s = x := by
  induction s generalizing x with
  | nil => simpa [splitPct] using h
  | cons c s ih =>
    simp only [splitPct] at h
    split at h
    · simp at h
      exact absurd h.2 (splitPct_ne s)
    · split at h
      · rename_i he
        exact absurd he (splitPct_ne s)
      · rename_i t ts he
        simp at h
        obtain ⟨rfl, rfl⟩ := h
        rw [ih he]

theorem splitPct_two {s x y : Bytes} (h : splitPct s = [x, y]) : s = x ++ ch '%' :: y := by
  induction s generalizing x with
  | nil => simp [splitPct] at h
  | cons c s ih =>
    simp only [splitPct] at h
    split at h
    · rename_i hc
      simp at h
      obtain ⟨rfl, h⟩ := h
      rw [hc, splitPct_one h]
      rfl
    · split at h
      · rename_i he
        exact absurd he (splitPct_ne s)
      · rename_i t ts he
        simp at h
        obtain ⟨rfl, rfl⟩ := h
        rw [ih he]
        rfl

/-- A host that matches an address is the text of the address. -/
theorem checkAddressWithUri_host {ip : Ip A} {a : A} {f : FaceUri} (h : checkAddressWithUri ip a f = true) :
    f.host = ip.text a := by
  unfold checkAddressWithUri at h
  split at h
  · exact (by simpa using h : ip.text a = f.host).symm
  · split at h
    · rename_i a0 a1 f0 f1 h1 h2
      split at h
      · simp at h
      · simp at h
        rw [splitPct_two h1, splitPct_two h2, h.1, h.2]
    · simp at h

theorem checkAddressWithUri_plain {ip : Ip A} {a : A} (ha : Plain ip a) {f : FaceUri} (h : f.host = ip.text a) :
    checkAddressWithUri ip a f = true := by
  unfold checkAddressWithUri
  split
  · simp [h]
  · rename_i hc
    simp only [Bool.or_eq_true, not_or, Bool.not_eq_true, Bool.not_eq_false', Bool.not_eq_eq_eq_not, Bool.not_true] at hc
    rcases ha with ha | ⟨ha, -⟩ | ⟨-, x, z, he, h1, h2, h3⟩
    · rw [hc.1] at ha; simp at ha
    · simp [ha] at hc
    · have hx : ch '%' ∉ x := fun hm => (hexchar_ne (h1.2 _ hm)).1 rfl
      have hz : ch '%' ∉ z := fun hm => (h2.2 _ hm).2.2.2 rfl
      have hs : splitPct (ip.text a) = [x, z] := by rw [he, splitPct_append hx, splitPct_no hz]
      rw [h, hs]
      dsimp only
      rw [if_neg]
      · simp
      · rintro ⟨hl, ht⟩
        match z, hl, ht with
        | c :: d :: e :: w, _, ht =>
          simp at ht
          exact h3 ⟨e :: w, by simp, by rw [ht.1, ht.2]; rfl⟩

/-- The scheme with the digit of the address family. -/
def famScheme (ip : Ip A) (base : Bytes) (a : A) : Bytes := base ++ [if ip.isV4 a then ch '4' else ch '6']

theorem fam_iff (ip : Ip A) (base s : Bytes) (a : A) :
    ((s == base ++ [ch '4'] && ip.isV4 a) || (s == base ++ [ch '6'] && !ip.isV4 a)) = true ↔ s = famScheme ip base a := by
  unfold famScheme
  cases ip.isV4 a <;> simp

/-- Canonical IP FaceUris. -/
theorem ipCanonical_elim {ip : Ip A} {base : Bytes} {f : FaceUri} (h : ipCanonical ip base f = true) :
    ∃ a, ip.make (unescapeHost f.host) = some a ∧ f.host = ip.text a ∧ f.scheme = famScheme ip base a ∧ f.port ≠ [] ∧
      f.path = [] ∧ ¬ (base = tcpText ∧ ip.isMulticast a = true) := by
  unfold ipCanonical at h
  split at h
  · simp at h
  · rename_i hp
    split at h
    · simp at h
    · rename_i hpath
      split at h
      · simp at h
      · rename_i a ha
        split at h
        · simp at h
        · rename_i hs
          simp only [Bool.not_eq_eq_eq_not, Bool.not_true, Bool.not_eq_false] at hs
          rw [fam_iff] at hs
          rw [Bool.and_eq_true] at h
          refine ⟨a, ha, checkAddressWithUri_host h.1, hs, hp, by simpa using hpath, ?_⟩
          have := h.2
          simp only [checkAddress, Bool.not_eq_eq_eq_not, Bool.not_true, Bool.and_eq_false_iff, beq_eq_false_iff_ne] at this
          rintro ⟨h1, h2⟩
          rcases this with h | h
          · exact h h1
          · rw [h] at h2; simp at h2

theorem ipCanonical_intro {ip : Ip A} (hip : IpOk ip) {base : Bytes} {f : FaceUri} {a : A} (ha : Plain ip a)
    (hh : f.host = ip.text a) (hs : f.scheme = famScheme ip base a) (hp : f.port ≠ []) (hpath : f.path = [])
    (hm : ¬ (base = tcpText ∧ ip.isMulticast a = true)) : ipCanonical ip base f = true := by
  unfold ipCanonical
  rw [if_neg hp, if_neg (by simp [hpath]), hh, unescape_plain ip hip a ha, hip.make_text a]
  dsimp only
  have hs' := (fam_iff ip base f.scheme a).2 hs
  rw [hs', Bool.not_true, if_neg (by simp), checkAddressWithUri_plain ha hh, Bool.true_and]
  simp only [checkAddress, Bool.not_eq_eq_eq_not, Bool.not_true, Bool.and_eq_false_iff, beq_eq_false_iff_ne]
  by_cases h : base = tcpText
  · exact Or.inr (by simpa [h] using hm)
  · exact Or.inl h

theorem getProvider_fam {ip : Ip A} {base : Bytes} (hb : base = udpText ∨ base = tcpText) (a : A) :
    getProvider (famScheme ip base a) = some (.ip base) := by
  unfold famScheme
  rcases hb with rfl | rfl <;> cases ip.isV4 a <;> decide

theorem getProvider_ip {s base : Bytes} (h : getProvider s = some (.ip base)) :
    (base = udpText ∨ base = tcpText) ∧ (s = base ∨ s = base ++ [ch '4'] ∨ s = base ++ [ch '6']) := by
  unfold getProvider at h
  (repeat' split at h) <;> simp at h
  · rename_i h1; subst h; exact ⟨Or.inl rfl, h1⟩
  · rename_i h1; subst h; exact ⟨Or.inr rfl, h1⟩

/-- The FaceUri of an endpoint is canonical. -/
theorem ofEndpoint_canonical {ip : Ip A} (hip : IpOk ip) (zx : Bool) {base : Bytes} (hb : base = udpText ∨ base = tcpText)
    {a : A} (ha : Plain ip a) (port : UInt16) (hm : ¬ (base = tcpText ∧ ip.isMulticast a = true)) :
    (FaceUri.ofEndpoint ip base a port).isCanonical ip zx = true := by
  have hs : (FaceUri.ofEndpoint ip base a port).scheme = famScheme ip base a := rfl
  unfold FaceUri.isCanonical
  rw [hs, getProvider_fam hb]
  exact ipCanonical_intro hip ha rfl hs (Name.dec_ne_nil _) rfl hm

theorem ofMac_canonical (ip : Ip A) (zx : Bool) (a : Mac) : (FaceUri.ofMac a).isCanonical ip zx = true := by
  have hs : getProvider (FaceUri.ofMac a).scheme = some .ether := by
    have : getProvider etherText = some .ether := by decide
    exact this
  unfold FaceUri.isCanonical
  rw [hs]
  simp [FaceUri.ofMac, C99_roundtrip]

theorem fromDev_canonical (ip : Ip A) (zx : Bool) {n : Bytes} (h : n ≠ []) : (FaceUri.fromDev n).isCanonical ip zx = true := by
  have hs : getProvider (FaceUri.fromDev n).scheme = some .dev := by
    have : getProvider devText = some .dev := by decide
    exact this
  unfold FaceUri.isCanonical
  rw [hs]
  simp [FaceUri.fromDev, h]

theorem checkAddress_iff (ip : Ip A) (base : Bytes) (a : A) :
    checkAddress ip base a = true ↔ ¬ (base = tcpText ∧ ip.isMulticast a = true) := by
  simp only [checkAddress, Bool.not_eq_eq_eq_not, Bool.not_true, Bool.and_eq_false_iff, beq_eq_false_iff_ne, not_and,
    Bool.not_eq_true]
  constructor
  · rintro (h | h) h'
    · exact absurd h' h
    · exact h
  · intro h
    by_cases hb : base = tcpText
    · exact Or.inr (h hb)
    · exact Or.inl hb

end Ndn.Net
