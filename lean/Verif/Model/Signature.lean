import Verif.GoLib

/-!
# Model of `pkg/narinfo/signature`

`crypto/ed25519` is a parameter (`Ed25519`); only the size checks of its functions are modelled.
-/

namespace Verif.Signature
open Verif.GoLib

/-- `crypto/ed25519`: the public key of a seed, `ed25519.Sign` and `ed25519.Verify` on arguments of
the right size. -/
structure Ed25519 where
  derive : Bytes → Bytes
  sign : Bytes → Bytes → Bytes
  verify : Bytes → Bytes → Bytes → Bool

/-- `ed25519.PublicKeySize`, `ed25519.PrivateKeySize`, `ed25519.SignatureSize`. -/
def publicKeySize : Nat := 32
@[inherit_doc publicKeySize] def privateKeySize : Nat := 64
@[inherit_doc publicKeySize] def signatureSize : Nat := 64

/-- `ed25519.Verify`: panics on a key of another size, false for a signature of another size. -/
def Ed25519.Verify (E : Ed25519) (pub msg sig : Bytes) : Res Bool :=
  if pub.length ≠ publicKeySize then .panic
  else if sig.length ≠ signatureSize then .ok false
  else .ok (E.verify pub msg sig)

/-- `ed25519.PrivateKey.Sign` with hash 0: panics on a key of another size. -/
def Ed25519.Sign (E : Ed25519) (priv msg : Bytes) : Res Bytes :=
  if priv.length ≠ privateKeySize then .panic else .ok (E.sign priv msg)

/-- `ed25519.PrivateKey.Public`: `publicKey := make([]byte, 32); copy(publicKey, priv[32:])`. -/
def publicPart (priv : Bytes) : Res Bytes :=
  if priv.length < 32 then .panic
  else .ok ((priv.drop 32).take 32 ++ List.replicate (32 - (priv.drop 32).length) 0)

/-- `Signature` (signature.go:9-12, `String` signature.go:15-17), `PublicKey` (public_key.go:9-12, `String` public_key.go:15-17), `SecretKey`
(secret_key.go:24-27, `String` secret_key.go:30-32): a name and data. -/
structure Named where
  name : Bytes
  data : Bytes
  deriving DecidableEq, Repr

/-- `encode` (util.go:47-49). -/
def encode (k : Named) : Bytes := k.name ++ b!":" ++ b64Encode k.data

/-- `decode` (util.go:13-43); `SplitN(s, ":", 2)` splits at the first colon. -/
def decode (s : Bytes) (dataSize : Nat) : Res Named :=
  match indexByte s 58 with
  | none => .err (.msg "encountered invalid number of fields")
  | some i =>
    if s.take i = [] then .err (.msg "name is missing")
    else if s.drop (i + 1) = [] then .err (.msg "data is missing")
    else match b64Decode (s.drop (i + 1)) with
      | .err _ => .err (.msg "data is corrupt")
      | .panic => .panic
      | .ok data =>
        if data.length ≠ dataSize then .err (.msg "data is not the right size")
        else .ok ⟨s.take i, data⟩

/-- `ParseSignature` (signature.go:21-28), `ParsePublicKey` (public_key.go:30-37), `LoadSecretKey`
(secret_key.go:35-42): wrap the error of `decode`. -/
def parseSignature (s : Bytes) : Res Named := decode s signatureSize
@[inherit_doc parseSignature] def parsePublicKey (s : Bytes) : Res Named := decode s publicKeySize
@[inherit_doc parseSignature] def loadSecretKey (s : Bytes) : Res Named := decode s privateKeySize

/-- `PublicKey.Verify` (public_key.go:21-27). -/
def verify (E : Ed25519) (pk : Named) (fingerprint : Bytes) (sig : Named) : Res Bool :=
  if pk.name ≠ sig.name then .ok false else E.Verify pk.data fingerprint sig.data

/-- The inner loop of `VerifyFirst` (signature.go:34-38): `none` when it ends without a match. -/
def verifyInner (E : Ed25519) (fingerprint : Bytes) (key : Named) : List Named → Option (Res Bool)
  | [] => none
  | sig :: sigs =>
    if key.name = sig.name then some (verify E key fingerprint sig)
    else verifyInner E fingerprint key sigs

/-- `VerifyFirst` (signature.go:32-42). -/
def verifyFirst (E : Ed25519) (fingerprint : Bytes) (sigs : List Named) : List Named → Res Bool
  | [] => .ok false
  | key :: keys =>
    match verifyInner E fingerprint key sigs with
    | some r => r
    | none => verifyFirst E fingerprint sigs keys

/-- `GenerateKeypair` (secret_key.go:14-21) when the random source delivers `seed` (32 bytes), or an
error. -/
def generateKeypair (E : Ed25519) (name : Bytes) (seed : Res Bytes) : Res (Named × Named) := do
  let s ← seed
  .ok (⟨name, s ++ E.derive s⟩, ⟨name, E.derive s⟩)

/-- `ToPublicKey` (secret_key.go:45-49). -/
def toPublicKey (sk : Named) : Res Named := do
  let p ← publicPart sk.data
  .ok ⟨sk.name, p⟩

/-- `SecretKey.Sign` (secret_key.go:53-62). -/
def sign (E : Ed25519) (sk : Named) (fingerprint : Bytes) : Res Named := do
  let d ← E.Sign sk.data fingerprint
  .ok ⟨sk.name, d⟩

end Verif.Signature
