import Verif.Model.ChunkFile
import Verif.Model.Json

/-!
The encryption objects and the files in which they are kept (`utilities/encryption.py:56-268`).

Simplified: the `cryptography` package is a parameter (`FernetLib`, `RsaLib`); the random salt and the random key are arguments; files are texts, UTF-8 is left out; a
`level` in a file that is no text is refused as any other that is no level, also by `__setstate__`, which does not look at it. `base64` is modelled, except that decoding refuses the characters it does not know, which
Python skips.
-/

namespace LitData

/-- The alphabet of `base64.urlsafe_b64encode` (used in `utilities/encryption.py:92`, 108). -/
def b64Alphabet : List Char := "ABCDEFGHIJKLMNOPQRSTUVWXYZabcdefghijklmnopqrstuvwxyz0123456789-_".toList

/-- The character of a value below 64 (`utilities/encryption.py:108`). -/
def b64Char (n : Nat) : Char := b64Alphabet.getD n '='

/-- `base64.urlsafe_b64encode` (used in `utilities/encryption.py:108`). -/
def b64Encode : Bytes → List Char
  | [] => []
  | [a] => [b64Char (a.toNat / 4), b64Char (a.toNat % 4 * 16), '=', '=']
  | [a, b] => [b64Char (a.toNat / 4), b64Char (a.toNat % 4 * 16 + b.toNat / 16), b64Char (b.toNat % 16 * 4), '=']
  | a :: b :: c :: r => b64Char (a.toNat / 4) :: b64Char (a.toNat % 4 * 16 + b.toNat / 16) :: b64Char (b.toNat % 16 * 4 + c.toNat / 64) ::
      b64Char (c.toNat % 64) :: b64Encode r

/-- The value of a character (`utilities/encryption.py:117`). -/
def b64Val (c : Char) : Py Nat := if c ∈ b64Alphabet then .ok (b64Alphabet.idxOf c) else .error .valueError

/-- One byte from the bits of two values (`utilities/encryption.py:117`). -/
def b64Byte (n : Nat) : UInt8 := UInt8.ofNat n

/-- `base64.urlsafe_b64decode` (used in `utilities/encryption.py:117`): wrong padding raises `binascii.Error`, a `ValueError`. -/
def b64Decode : List Char → Py Bytes
  | [] => .ok []
  | a :: b :: c :: d :: r => do
    let x ← b64Val a
    let y ← b64Val b
    if c = '=' then
      if d = '=' ∧ r = [] then return [b64Byte (x * 4 + y / 16)] else .error .valueError
    else
      let z ← b64Val c
      if d = '=' then
        if r = [] then return [b64Byte (x * 4 + y / 16), b64Byte (y % 16 * 16 + z / 4)] else .error .valueError
      else
        let w ← b64Val d
        let rest ← b64Decode r
        return b64Byte (x * 4 + y / 16) :: b64Byte (y % 16 * 16 + z / 4) :: b64Byte (z % 4 * 64 + w) :: rest
  | _ => .error .valueError

/-- `state[key]` of what `json.load` returned (used in `utilities/encryption.py:117-118`, 214-229, 252): the last value of the key wins. -/
def stateGet (key : String) : Json → Py Json
  | .obj ks vs => match (ks.zip vs).reverse.lookup key with
    | some v => .ok v
    | none => .error .keyError
  | _ => .error .typeError

/-- `level in get_args(EncryptionLevelType)` (`utilities/encryption.py:72-73`, 139-140). -/
def levelOf : String → Py EncLevel
  | "sample" => .ok .sample
  | "chunk" => .ok .chunk
  | _ => .error .valueError

/-- The text of a level (`utilities/encryption.py:17-23`). -/
def EncLevel.text : EncLevel → String
  | .sample => "sample"
  | .chunk => "chunk"

/-- The level read from a file (`utilities/encryption.py:118`, 252). -/
def levelOfState : Json → Py EncLevel
  | .str s => levelOf s
  | _ => .error .valueError

/-- `cryptography.fernet` and the derivation of the key, `_derive_key` (`utilities/encryption.py:85-92`), as parameters. -/
structure FernetLib where
  derive : String → Bytes → Bytes
  encrypt : Bytes → Nat → Bytes → Bytes
  decrypt : Bytes → Bytes → Py Bytes

/-- A `FernetEncryption` (`utilities/encryption.py:56-79`). -/
structure FernetObj where
  password : String
  level : EncLevel
  salt : Bytes
  key : Bytes

/-- `FernetEncryption.__init__` (`utilities/encryption.py:63-79`) with the random salt. -/
def fernetNew (lib : FernetLib) (salt : Bytes) (password level : String) : Py FernetObj := do
  let l ← levelOf level
  return ⟨password, l, salt, lib.derive password salt⟩

/-- `FernetEncryption.save` (`utilities/encryption.py:100-110`): the text of the file. -/
def fernetSave (e : FernetObj) : String :=
  dumps (.obj ["algorithm", "level", "salt"] [.str "fernet", .str e.level.text, .str (String.ofList (b64Encode e.salt))])

/-- The salt in the file (`utilities/encryption.py:117`); `base64` refuses what is no text. -/
def saltOfState : Json → Py Bytes
  | .str s => b64Decode s.toList
  | _ => .error .typeError

/-- `FernetEncryption.load` (`utilities/encryption.py:112-122`); `fresh` is the random salt of the constructor, which is replaced. -/
def fernetLoad (lib : FernetLib) (fresh : Bytes) (text password : String) : Py FernetObj := do
  let state ← loads text
  let saltJson ← stateGet "salt" state
  let salt ← saltOfState saltJson
  let levelJson ← stateGet "level" state
  let l ← levelOfState levelJson
  let e ← fernetNew lib fresh password l.text
  return { e with salt := salt, key := lib.derive password salt }

/-- The object as the writer and the item loader see it (`utilities/encryption.py:81-98`). -/
def FernetObj.toEncryption (lib : FernetLib) (e : FernetObj) : Encryption := ⟨"fernet", e.level, lib.encrypt e.key, lib.decrypt e.key⟩

/-- RSA keys of the `cryptography` package and their PEM texts, as parameters (`utilities/encryption.py:150-241`). The password of a PEM text is `none` for
`NoEncryption`. -/
structure RsaLib (K P : Type) where
  pub : K → P
  encrypt : P → Nat → Bytes → Py Bytes
  decrypt : K → Bytes → Py Bytes
  privatePem : Option String → K → String
  publicPem : P → String
  loadPrivate : String → Option String → Py K
  loadPublic : String → Py P

/-- An `RSAEncryption` (`utilities/encryption.py:125-144`). -/
structure RsaObj (K P : Type) where
  password : String
  level : EncLevel
  privateKey : Option K
  publicKey : Option P

/-- `RSAEncryption.__init__` (`utilities/encryption.py:132-144`) with the random key. -/
def rsaNew {K P : Type} (lib : RsaLib K P) (key : K) (password level : String) : Py (RsaObj K P) := do
  let l ← levelOf level
  return ⟨password, l, some key, some (lib.pub key)⟩

/-- `RSAEncryption.encrypt` (`utilities/encryption.py:158-168`). -/
def rsaEncrypt {K P : Type} (lib : RsaLib K P) (e : RsaObj K P) (nonce : Nat) (data : Bytes) : Py Bytes :=
  match e.publicKey with
  | some p => lib.encrypt p nonce data
  | none => .error .attributeError

/-- `RSAEncryption.decrypt` (`utilities/encryption.py:170-180`). -/
def rsaDecrypt {K P : Type} (lib : RsaLib K P) (e : RsaObj K P) (data : Bytes) : Py Bytes :=
  match e.privateKey with
  | some k => lib.decrypt k data
  | none => .error .attributeError

/-- The password of a PEM text: an empty one is none (`utilities/encryption.py:189-193`, 220). -/
def pemPassword (password : String) : Option String := if password = "" then none else some password

/-- A text or `None` (`utilities/encryption.py:199`, 206). -/
def jsonOfPem : Option String → Json
  | some s => .str s
  | none => .null

/-- `RSAEncryption.__getstate__` (`utilities/encryption.py:188-210`). -/
def rsaGetState {K P : Type} (lib : RsaLib K P) (e : RsaObj K P) : Json :=
  .obj ["private_key", "public_key", "password", "level"]
    [jsonOfPem (e.privateKey.map (lib.privatePem (pemPassword e.password))), jsonOfPem (e.publicKey.map lib.publicPem), .str e.password, .str e.level.text]

/-- The password in the state; `None` becomes the empty text (`utilities/encryption.py:214`). -/
def passwordOfState : Json → Py String
  | .str s => .ok s
  | .null => .ok ""
  | _ => .error .attributeError

/-- A PEM text in the state; an empty one counts as none (`utilities/encryption.py:217`, 225). -/
def pemOfState : Json → Py (Option String)
  | .str s => .ok (if s = "" then none else some s)
  | .null => .ok none
  | _ => .error .attributeError

/-- Load a key if there is one (`utilities/encryption.py:217-230`). -/
def loadIf {A : Type} (load : String → Py A) : Option String → Py (Option A)
  | some s => (load s).map some
  | none => .ok none

/-- `RSAEncryption.__setstate__` (`utilities/encryption.py:212-230`). -/
def rsaSetState {K P : Type} (lib : RsaLib K P) (state : Json) : Py (RsaObj K P) := do
  let pj ← stateGet "password" state
  let password ← passwordOfState pj
  let lj ← stateGet "level" state
  let l ← levelOfState lj
  let kj ← stateGet "private_key" state
  let kp ← pemOfState kj
  let k ← loadIf (fun s => lib.loadPrivate s (pemPassword password)) kp
  let qj ← stateGet "public_key" state
  let qp ← pemOfState qj
  let q ← loadIf lib.loadPublic qp
  return ⟨password, l, k, q⟩

/-- `RSAEncryption.save` (`utilities/encryption.py:243-245`): the text of the file. -/
def rsaSave {K P : Type} (lib : RsaLib K P) (e : RsaObj K P) : String := dumps (rsaGetState lib e)

/-- `RSAEncryption.load` (`utilities/encryption.py:247-254`): the constructor generates a key `fresh`, all of whose object is replaced. -/
def rsaLoad {K P : Type} (lib : RsaLib K P) (fresh : K) (text password : String) : Py (RsaObj K P) := do
  let state ← loads text
  let lj ← stateGet "level" state
  let l ← levelOfState lj
  let _ ← rsaNew lib fresh password l.text
  rsaSetState lib state

/-- `RSAEncryption.save_keys` (`utilities/encryption.py:256-264`): the texts of the two files. -/
def rsaSaveKeys {K P : Type} (lib : RsaLib K P) (e : RsaObj K P) : Py (String × String) :=
  match e.privateKey, e.publicKey with
  | some k, some p =>
    if lib.privatePem (pemPassword e.password) k = "" ∨ lib.publicPem p = "" then .error .attributeError
    else .ok (lib.privatePem (pemPassword e.password) k, lib.publicPem p)
  | _, _ => .error .attributeError

/-- `RSAEncryption.load_keys` (`utilities/encryption.py:232-241`, 266-268): here the password is always given to the package, also an empty one. -/
def rsaLoadKeys {K P : Type} (lib : RsaLib K P) (e : RsaObj K P) (privateText publicText password : String) : Py (RsaObj K P) := do
  let k ← lib.loadPrivate privateText (some password)
  let p ← lib.loadPublic publicText
  return { e with privateKey := some k, publicKey := some p }

/-- The object as the writer and the item loader see it (`utilities/encryption.py:146-186`); what it raises is in `rsaWriteItems`. -/
def RsaObj.toEncryption {K P : Type} (lib : RsaLib K P) (e : RsaObj K P) : Encryption :=
  ⟨"rsa", e.level, fun nonce data => match rsaEncrypt lib e nonce data with | .ok x => x | .error _ => [], rsaDecrypt lib e⟩

/-- The samples of a chunk encrypted one after the other (`streaming/writer.py:330-332`). -/
def rsaEncryptItems {K P : Type} (lib : RsaLib K P) (e : RsaObj K P) (nonce : Nat → Nat) : Nat → List Bytes → Py (List Bytes)
  | _, [] => .ok []
  | i, x :: xs => do
    let y ← rsaEncrypt lib e (nonce (i + 1)) x
    let ys ← rsaEncryptItems lib e nonce (i + 1) xs
    return y :: ys

/-- The file of a chunk written with an `RSAEncryption` (`streaming/writer.py:268-270`, 330-332), as `writeItems`, with what is raised. -/
def rsaWriteItems {K P : Type} (lib : RsaLib K P) (e : RsaObj K P) (nonce : Nat → Nat) (items : List Bytes) : Py Bytes :=
  match e.level with
  | .chunk => rsaEncrypt lib e (nonce 0) (chunkBytes items)
  | .sample => (rsaEncryptItems lib e nonce 0 items).map chunkBytes

end LitData
