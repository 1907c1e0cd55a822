import Verif.Name.Model
/-
Model of the parameters for the creation of keys (security/key-params.{hpp,cpp}) and of what the back-ends of the TPM do with
them: `generatePrivateKey` (security/transform/private-key.cpp 423-545) and the choice of the key's name. The generation
itself is OpenSSL's: the model says what is asked of it. Sizes are of type `uint32_t`; the conversion of larger arguments to
it, by the caller, is not modelled.
-/
namespace Ndn.KeyParams
open Ndn.Name

/-- `KeyType`, security-common.hpp: those that have parameters. -/
inductive KeyType where
  | rsa | ec | aes | hmac
  deriving DecidableEq, Repr

/-- `KeyIdType`, security-common.hpp 79-98. -/
inductive IdType where
  | user | sha256 | random
  deriving DecidableEq, Repr

inductive Err where
  /-- `KeyParams::Error` -/
  | params
  /-- `tpm::BackEnd::Error` -/
  | tpm
  /-- `std::invalid_argument` -/
  | invalid
  /-- a failed assertion -/
  | assertion
  deriving DecidableEq, Repr

/-- `checkKeySize` of the four classes, key-params.cpp 53-108. -/
def checkKeySize : KeyType → Nat → Except Err Nat
  | .rsa, n => if n < 2048 || n > 16384 then .error .params else .ok n
  | .ec, n => if [224, 256, 384, 521].contains n then .ok n else .error .params
  | .aes, n => if [128, 192, 256].contains n then .ok n else .error .params
  | .hmac, n => if n == 0 || n % 8 != 0 then .error .params else .ok n

/-- `getDefaultSize` of the four classes, key-params.cpp 61-114. -/
def defaultSize : KeyType → Nat
  | .rsa => 2048
  | .ec => 256
  | .aes => 128
  | .hmac => 256

/-- A `KeyParams` object, key-params.hpp 89-92, with the size of its subclass, 180. -/
structure Params where
  ty : KeyType
  idType : IdType
  id : Comp
  size : Nat
  deriving DecidableEq, Repr

/-- The empty component a `KeyParams` has before an id is given, name-component.hpp 149-151. -/
def noId : Comp := ⟨8, []⟩

/-- The constructor with a key id, key-params.hpp 143-149 and 240-246, key-params.cpp 32-38. -/
def withId (ty : KeyType) (id : Comp) (size : Nat) : Except Err Params :=
  if id.value = [] then .error .assertion
  else match checkKeySize ty size with
    | .error e => .error e
    | .ok n => .ok ⟨ty, .user, id, n⟩

/-- The constructor without, key-params.hpp 157-163 and 254-260, key-params.cpp 25-30. -/
def withType (ty : KeyType) (size : Nat) (idType : IdType) : Except Err Params :=
  if idType = .user then .error .assertion
  else match checkKeySize ty size with
    | .error e => .error e
    | .ok n => .ok ⟨ty, idType, noId, n⟩

/-- `setKeyId`, key-params.hpp 62-66. -/
def Params.setKeyId (p : Params) (id : Comp) : Params := { p with id := id }

/-- How an object is made. -/
inductive Make where
  | withId (id : Comp) (size : Nat)
  | withType (size : Nat) (idType : IdType)

def make (ty : KeyType) : Make → Except Err Params
  | .withId id n => withId ty id n
  | .withType n t => withType ty n t

/-- An object after calls of `setKeyId`. -/
def setAll (p : Params) (ids : List Comp) : Params := ids.foldl Params.setKeyId p

/-- What is asked of the library of cryptography. -/
inductive Gen where
  /-- `EVP_RSA_gen(bits)` -/
  | rsa (bits : Nat)
  /-- `EVP_EC_gen("P-" + bits)` -/
  | ec (bits : Nat)
  /-- a raw key of so many random octets -/
  | raw (octets : Nat)
  deriving DecidableEq, Repr

/-- `generatePrivateKey`, private-key.cpp 523-543, with `generateEcKey` 449-503 and `generateHmacKey` 506-521. -/
def generate (p : Params) : Except Err Gen :=
  match p.ty with
  | .rsa => .ok (.rsa p.size)
  | .ec => if p.size = 224 ∨ p.size = 256 ∨ p.size = 384 ∨ p.size = 521 then .ok (.ec p.size) else .error .invalid
  | .hmac => .ok (.raw (p.size / 8))
  | .aes => .error .invalid

inductive Back where
  | memory | file
  deriving DecidableEq, Repr

/-- `doCreateKey`, the types of keys a back-end can make: back-end-mem.cpp 72-80, back-end-file.cpp 126-133. -/
def Back.supports : Back → KeyType → Bool
  | .memory, .rsa | .memory, .ec | .memory, .hmac => true
  | .file, .rsa | .file, .ec => true
  | _, _ => false

/-- What names a new key: the component given, the digest of the public key, a random number, or the digest of the secret. -/
inductive Naming where
  | given (id : Comp) | publicDigest | random | secretDigest
  deriving DecidableEq, Repr

/-- `createKey`, back-end.cpp 50-76, `doCreateKey`, back-end-mem.cpp 70-97 and back-end-file.cpp 124-149, with
`constructAsymmetricKeyName` and `constructHmacKeyName`, back-end.cpp 111-146. `has`: the names of the identity's keys in the
back-end. The writing of the key is in KeyChain and KeyFile. -/
def create (b : Back) (has : Comp → Bool) (p : Params) : Except Err (Gen × Naming) :=
  if p.ty ≠ .hmac ∧ p.idType = .user ∧ has p.id then .error .tpm
  else if b.supports p.ty then
    match generate p with
    | .error e => .error e
    | .ok g => .ok (g, if p.ty = .hmac then .secretDigest else match p.idType with
      | .user => .given p.id
      | .sha256 => .publicDigest
      | .random => .random)
  else .error .invalid

end Ndn.KeyParams
