import Verif.KeyFile.Model
/-
What is asked of the parameters, and the key store as a map.
-/
namespace Ndn.KeyFile.Spec
open Ndn.KeyFile

section
variable {K N I : Type}

/-- What is asked of the encodings and of the digest: what was encoded is decoded; an encoding cut short is not the encoding of
something else, and nothing is that of no key; different names have different file names. -/
structure Lawful (L : Lib K N I) : Prop where
  dec_enc : ∀ k, L.dec (L.enc k) = some k
  dec_cut : ∀ k j, L.dec ((L.enc k).take j) = none ∨ L.dec ((L.enc k).take j) = some k
  dec_nil : L.dec [] = none
  dec8_enc8 : ∀ pw k, L.dec8 pw (L.enc8 pw k) = some k
  path_inj : ∀ n m, L.path n = L.path m → n = m

/-- The key store as it should be: a map. -/
abbrev Store (K N : Type) := N → Option K

/-- What a call does to the map, and its result. -/
inductive Does (L : Lib K N I) : Store K N → Op K N I → Store K N → Out K N → Prop
  | createUser (s s' n k) : s n = none → s' n = some k → (∀ m, m ≠ n → s' m = s m) → Does L s (.create (.user n) k) s' (.name n)
  | createTaken (s n k k') : s n = some k' → Does L s (.create (.user n) k) s (.throws .backend)
  | createSha (s s' i k) : s' (L.shaName i k) = some k → (∀ m, m ≠ L.shaName i k → s' m = s m) → Does L s (.create (.sha i) k) s' (.name (L.shaName i k))
  | createRandom (s s' l1 n l2 k) : (∀ m ∈ l1, s m ≠ none) → s n = none → s' n = some k → (∀ m, m ≠ n → s' m = s m) →
      Does L s (.create (.random (l1 ++ n :: l2)) k) s' (.name n)
  | createNone (s ns k) : (∀ m ∈ ns, s m ≠ none) → Does L s (.create (.random ns) k) s (.throws .drawing)
  | import (s s' n k) : s n = none → s' n = some k → (∀ m, m ≠ n → s' m = s m) → Does L s (.importKey n k) s' .unit
  | importTaken (s n k k') : s n = some k' → Does L s (.importKey n k) s (.throws .backend)
  | import8 (s s' n k b pw) : s n = none → L.dec8 pw b = some k → s' n = some k → (∀ m, m ≠ n → s' m = s m) →
      Does L s (.importPkcs8 n b pw) s' .unit
  | import8Refused (s n b pw) : (s n ≠ none ∨ L.dec8 pw b = none) → Does L s (.importPkcs8 n b pw) s (.throws .backend)
  | export (s n pw k) : s n = some k → Does L s (.exportKey n pw) s (.octets (L.enc8 pw k))
  | exportNone (s n pw) : s n = none → Does L s (.exportKey n pw) s (.throws .backend)
  | delete (s s' n) : s' n = none → (∀ m, m ≠ n → s' m = s m) → Does L s (.delete n) s' .unit
  | has (s n b) : (b = true ↔ s n ≠ none) → Does L s (.has n) s (.bool b)
  | handle (s n) : Does L s (.handle n) s (.handle (s n))

/-- What a sequence of calls does. -/
inductive DoesAll (L : Lib K N I) : Store K N → List (Op K N I) → Store K N → List (Out K N) → Prop
  | nil (s) : DoesAll L s [] s []
  | cons (s s' s'' o ops r rs) : Does L s o s' r → DoesAll L s' ops s'' rs → DoesAll L s (o :: ops) s'' (r :: rs)

/-- The names of the keys that are generated with names from digests are free. -/
def ShaFree (L : Lib K N I) (s : Store K N) : Op K N I → Prop
  | .create (.sha i) k => s (L.shaName i k) = none
  | _ => True

/-- The key store holds this key under this name, for whoever opens the directory. -/
def Holds (L : Lib K N I) (d : Dir) (n : N) (k : K) : Prop := ∃ f, d (L.path n) = some f ∧ L.dec f.content = some k

/-- The key store holds no key under this name. -/
def Free (L : Lib K N I) (d : Dir) (n : N) : Prop := ∀ k, ¬ Holds L d n k

/-- The call may store this key under this name. -/
def Writes (L : Lib K N I) (d : Dir) : Op K N I → N → K → Prop
  | .create (.user m) g, n, k => m = n ∧ g = k ∧ Free L d n
  | .create (.sha i) g, n, k => L.shaName i g = n ∧ g = k
  | .create (.random ns) g, n, k => n ∈ ns ∧ g = k ∧ Free L d n
  | .importKey m g, n, k => m = n ∧ g = k ∧ Free L d n
  | .importPkcs8 m b pw, n, k => m = n ∧ L.dec8 pw b = some k ∧ Free L d n
  | _, _, _ => False

/-- The result of the call says that this key is now stored under this name. -/
def Reports (L : Lib K N I) : Op K N I → Out K N → N → K → Prop
  | .create _ g, .name m, n, k => m = n ∧ g = k
  | .importKey m g, .unit, n, k => m = n ∧ g = k
  | .importPkcs8 m b pw, .unit, n, k => m = n ∧ L.dec8 pw b = some k
  | _, _, _, _ => False

/-- The directories that can be reached from `d` in circumstances `P`: every call may be the last of a program that is killed in the
middle of it, and another program goes on from there. -/
inductive Reach (L : Lib K N I) (P : Env → Prop) : Dir → Dir → Prop
  | here (d) : Reach L P d d
  | step (d d' d'' e o) : Reach L P d d' → P e → d'' ∈ (call L e d' o).1 → Reach L P d d''

/-- Others than the owner can read this key. -/
def Exposed (L : Lib K N I) (d : Dir) (n : N) (k : K) : Prop :=
  ∃ f, d (L.path n) = some f ∧ L.dec f.content = some k ∧ f.othersRead = true

end

end Ndn.KeyFile.Spec
