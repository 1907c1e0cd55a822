import Verif.KeyChain.Model
/-
Model of the strings of `SigningInfo`: the constructor from a string and `operator<<`
(security/signing-info.cpp 69-105, 185-203).
-/
namespace Ndn.KeyChain
open Ndn.Name Ndn.Tlv Ndn.Block Ndn.Packet Ndn.Pib

variable {K : Type}

/-- `id`, `key`, `cert` and `hmac-sha256`. -/
def idText : Bytes := [105, 100]
def keyText : Bytes := [107, 101, 121]
def certText : Bytes := [99, 101, 114, 116]
def hmacText : Bytes := [104, 109, 97, 99, 45, 115, 104, 97, 50, 53, 54]

/-- `SigningInfo(signingStr)`, signing-info.cpp 69-105; `none`: an exception. `alt`: the format of URIs, which depends
on the environment; `raw`: base64 decoding and `PrivateKey::loadRaw` of an HMAC key. -/
def SInfo.fromText (C : Crypto K) (raw : Bytes → Option K) (alt : Bool) (t : Bytes) : Option (SInfo K) :=
  if t = [] then some .init
  else match t.dropWhile (· ≠ 58) with
    | [] => none
    | _ :: arg =>
      let scheme := t.takeWhile (· ≠ 58)
      if scheme = idText then
        if arg = toUri alt digestIdentity then some (SInfo.init.setSha256Signing)
        else (fromUri arg).map SInfo.init.setSigningIdentity
      else if scheme = keyText then (fromUri arg).map SInfo.init.setSigningKeyName
      else if scheme = certText then (fromUri arg).map SInfo.init.setSigningCertName
      else if scheme = hmacText then (raw arg).map (fun k => { SInfo.init.setSigningHmac C k with alg := .sha256 })
      else none

/-- `operator<<`, signing-info.cpp 185-203. -/
def SInfo.toText (alt : Bool) (p : SInfo K) : Bytes :=
  match p.type with
  | .null => []
  | .ident => idText ++ 58 :: toUri alt p.name
  | .key => keyText ++ 58 :: toUri alt p.name
  | .cert => certText ++ 58 :: toUri alt p.name
  | .sha256 => idText ++ 58 :: toUri alt digestIdentity
  | .hmac => idText ++ 58 :: toUri alt p.name

end Ndn.KeyChain
