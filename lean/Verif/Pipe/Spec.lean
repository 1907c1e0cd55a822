import Verif.Pipe.Model
/-
What pipelines are meant to compute, said without them.
-/
namespace Ndn.Pipe.Spec

/-- A BIO gives its output piece by piece: what can be read early stays. -/
structure Lawful (e : Engine) : Prop where
  mono : ∀ x y, e.out x <+: e.out (x ++ y)
  final : ∀ x z, e.final x = some z → e.out x <+: z

/-- The function from octets to octets that a kind of module computes; `none`: the input is refused. -/
inductive Computes : Mod → (Bytes → Option Bytes) → Prop
  | hexEncode (upper : Bool) : Computes (hexEncodeMod upper) (fun x => some (Hex.hexEncode upper x))
  | hexDecode : Computes hexDecodeMod Hex.fromHex
  | stripSpace (ws : UInt8 → Bool) : Computes (stripSpaceMod ws) (fun x => some (x.filter (fun c => !ws c)))
  | context (f : Bytes → Option Bytes) : Computes (contextMod f) f
  | bio {e : Engine} : Lawful e → Computes (bioMod e) e.final
  | bioDecode {e : Engine} : Lawful e → (∀ x, (e.final x).isSome) → Computes (bioDecodeMod e) e.final

/-- One function after the other. -/
def through : List (Mod × (Bytes → Option Bytes)) → Bytes → Option Bytes
  | [], x => some x
  | p :: ps, x => match p.2 x with
    | none => none
    | some y => through ps y

/-- Whether a history has an `end()`. -/
def hasEnd : List SOp → Bool
  | [] => false
  | .write _ :: ops => hasEnd ops
  | .fin :: _ => true

/-- What was written before the first `end()`. -/
def input : List SOp → Bytes
  | [] => []
  | .write b :: ops => b ++ input ops
  | .fin :: _ => []

/-- What each call of a history does, `ended`: there has been an `end()` before. -/
def obsAfter : Bool → List SOp → List SObs
  | _, [] => []
  | ended, .write b :: ops => (if ended then .closed else .wrote b.length) :: obsAfter ended ops
  | _, .fin :: ops => .ended :: obsAfter true ops

/-- A digest object: what was put in, whether the digest has been taken, and whether nothing has been put in. -/
structure Obj where
  content : Bytes
  taken : Bool
  empty : Bool

/-- Objects called so. -/
def objStep (sha : Bytes → Bytes) (f : Nat → Obj) : ShaOp → (Nat → Obj) × ShaObs
  | .reset i => (put f i ⟨[], false, true⟩, .nothing)
  | .update i b => if (f i).taken then (f, .threw) else (put f i ⟨(f i).content ++ b, false, false⟩, .nothing)
  | .digest i => (put f i { f i with taken := true }, .octets (sha (f i).content))
  | .empty i => (f, .bool (f i).empty)
  | .eq i j => (put (put f i { f i with taken := true }) j { f j with taken := true }, .bool (decide (sha (f i).content = sha (f j).content)))
  | .append i j =>
    let g := put f j { f j with taken := true }
    if (g i).taken then (g, .threw) else (put g i ⟨(g i).content ++ sha (f j).content, false, false⟩, .nothing)

def objRun (sha : Bytes → Bytes) (x : (Nat → Obj) × List ShaObs) : List ShaOp → (Nat → Obj) × List ShaObs
  | [] => x
  | op :: ops => let r := objStep sha x.1 op; objRun sha (r.1, x.2 ++ [r.2]) ops

end Ndn.Pipe.Spec
