import Verif.Block.Model
/-
Model of the decoder of certificate bundles (security/detail/certificate-bundle-decoder.cpp and .hpp).

The constructor of `Certificate` is a parameter `cert` (`none`: it throws), and so are the handlers of the signal: `throws c` says that one
of them throws when it is given `c`. Handlers do not call `append`, as the documentation demands.
-/
namespace Ndn.Bundle
open Ndn.Block Ndn.Tlv

/-- `CertificateBundleDecoder`, hpp 66-68; `out`: the certificates with which `onCertDecoded` was emitted, in order. -/
structure Decoder (C : Type) where
  buf : Bytes
  err : Bool
  out : List C
  deriving DecidableEq, Repr

variable {C : Type}

/-- A decoder just made. -/
def init : Decoder C := ⟨[], false, []⟩

/-- `decode`, cpp 38-61; the first argument bounds the number of iterations (each removes at least two octets); `true`: an exception is
thrown, and the guard of line 41 has set the flag. -/
def decode (cert : Raw → Option C) (throws : C → Bool) : Nat → Decoder C → Bool × Decoder C
  | 0, s => (false, s)
  | fuel + 1, s =>
    if s.buf = [] then (false, s)
    else
      match fromBuffer s.buf with
      | none => (false, s)
      | some (e, rest) =>
        if e.type = 6 then
          match cert e with
          | none => (true, { s with buf := rest, err := true })
          | some c =>
            if throws c then (true, ⟨rest, true, s.out ++ [c]⟩)
            else decode cert throws fuel { s with buf := rest, out := s.out ++ [c] }
        else if isCriticalType e.type then (true, { s with buf := rest, err := true })
        else decode cert throws fuel { s with buf := rest }

/-- `append`, cpp 27-36. -/
def append (cert : Raw → Option C) (throws : C → Bool) (s : Decoder C) (segment : Bytes) : Bool × Decoder C :=
  if s.err then (true, s)
  else decode cert throws (s.buf ++ segment).length { s with buf := s.buf ++ segment }

/-- Segments appended one after another; exceptions are caught. -/
def run (cert : Raw → Option C) (throws : C → Bool) (s : Decoder C) (l : List Bytes) : Decoder C :=
  l.foldl (fun s x => (append cert throws s x).2) s

end Ndn.Bundle
