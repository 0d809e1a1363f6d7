import Verif.Model.Keys
import Verif.Lemmas.Json
import Verif.Props.ChunkFile

/-!
C61: encryption objects survive being saved and loaded.
-/

namespace LitData.Props

open LitData

/-! ### base64 -/

theorem b64Val_char (n : Nat) (h : n < 64) : b64Val (b64Char n) = .ok n := by
  have : ∀ m : Fin 64, b64Val (b64Char m.1) = .ok m.1 := by decide +kernel
  exact this ⟨n, h⟩

theorem b64Char_ne (n : Nat) (h : n < 64) : b64Char n ≠ '=' := by
  have : ∀ m : Fin 64, b64Char m.1 ≠ '=' := by decide +kernel
  exact this ⟨n, h⟩

theorem b64Byte_eq (n : Nat) (a : UInt8) (h : n = a.toNat) : b64Byte n = a := by
  unfold b64Byte
  rw [h, UInt8.ofNat_toNat]

/-- **C61, base64.** What is decoded is what was encoded, for all bytes. -/
theorem c61_base64 : ∀ x : Bytes, b64Decode (b64Encode x) = .ok x
  | [] => rfl
  | [a] => by
    have ha := a.toNat_lt
    simp only [b64Encode, b64Decode, bind, Except.bind]
    rw [b64Val_char _ (by omega), b64Val_char _ (by omega)]
    simp only [if_true, and_self, pure, Except.pure]
    rw [b64Byte_eq _ a (by omega)]
  | [a, b] => by
    have ha := a.toNat_lt
    have hb := b.toNat_lt
    simp only [b64Encode, b64Decode, bind, Except.bind]
    rw [b64Val_char _ (by omega), b64Val_char _ (by omega), b64Val_char _ (by omega)]
    simp only [if_true, and_self, pure, Except.pure]
    rw [if_neg (b64Char_ne _ (by omega)), b64Byte_eq _ a (by omega), b64Byte_eq _ b (by omega)]
  | a :: b :: c :: r => by
    have ha := a.toNat_lt
    have hb := b.toNat_lt
    have hc := c.toNat_lt
    simp only [b64Encode, b64Decode, bind, Except.bind]
    rw [b64Val_char _ (by omega), b64Val_char _ (by omega), b64Val_char _ (by omega), b64Val_char _ (by omega), c61_base64 r]
    simp only [pure, Except.pure]
    rw [if_neg (b64Char_ne _ (by omega)), if_neg (b64Char_ne _ (by omega)), b64Byte_eq _ a (by omega), b64Byte_eq _ b (by omega),
      b64Byte_eq _ c (by omega)]

example : b64Encode [0, 255, 62, 63] = "AP8-Pw==".toList ∧ b64Decode "AP8-Pw==".toList = .ok [0, 255, 62, 63] ∧ b64Decode "AP8".toList = .error .valueError := by
  decide +kernel

/-! ### Fernet -/

theorem levelOf_text (l : EncLevel) : levelOf l.text = .ok l := by cases l <;> rfl

/-- The object of a file with these fields. -/
theorem fernetLoad_state (lib : FernetLib) (fresh : Bytes) (alg salt password : String) (l : EncLevel) :
    fernetLoad lib fresh (dumps (.obj ["algorithm", "level", "salt"] [.str alg, .str l.text, .str salt])) password =
      (b64Decode salt.toList).map fun s => ⟨password, l, s, lib.derive password s⟩ := by
  unfold fernetLoad
  rw [loads_dumps _ (by simp [Json.WF, WFList])]
  have h1 : stateGet "salt" (.obj ["algorithm", "level", "salt"] [.str alg, .str l.text, .str salt]) = .ok (.str salt) := rfl
  have h2 : stateGet "level" (.obj ["algorithm", "level", "salt"] [.str alg, .str l.text, .str salt]) = .ok (.str l.text) := rfl
  simp only [bind, Except.bind, h1, saltOfState]
  cases b64Decode salt.toList with
  | error e => rfl
  | ok s =>
    simp only [h2, levelOfState, levelOf_text, fernetNew, bind, Except.bind, pure, Except.pure, Except.map]

/-- **C61, Fernet.** An object that is saved and loaded with the same password is the same object: password, level, salt and key. -/
theorem c61_fernet_roundtrip (lib : FernetLib) (salt fresh : Bytes) (password level : String) (e : FernetObj)
    (h : fernetNew lib salt password level = .ok e) : fernetLoad lib fresh (fernetSave e) password = .ok e := by
  unfold fernetNew at h
  simp only [bind, Except.bind] at h
  cases hl : levelOf level with
  | error err => rw [hl] at h; cases h
  | ok l =>
    rw [hl] at h
    cases h
    unfold fernetSave
    rw [fernetLoad_state, String.toList_ofList, c61_base64]
    rfl

/-- **C61, levels.** Exactly the two levels are accepted; others are refused when the object is made. -/
theorem c61_levels (lib : FernetLib) (salt : Bytes) (password level : String) :
    (level = "sample" ∨ level = "chunk" → ∃ e, fernetNew lib salt password level = .ok e ∧ e.level.text = level ∧ e.password = password ∧ e.salt = salt ∧
      e.key = lib.derive password salt) ∧
    (level ≠ "sample" → level ≠ "chunk" → fernetNew lib salt password level = .error .valueError) := by
  constructor
  · rintro (rfl | rfl) <;> exact ⟨_, rfl, rfl, rfl, rfl, rfl⟩
  · intro h1 h2
    have : levelOf level = .error .valueError := by
      unfold levelOf
      split
      · exact absurd rfl h1
      · exact absurd rfl h2
      · rfl
    unfold fernetNew
    rw [this]
    rfl

/-- **C61, data outlives the object.** Chunks written with an object are read, in any order, with the object loaded from its file in another process with the same password. -/
theorem c61_fernet_reads (lib : FernetLib) (hlib : ∀ k n x, lib.decrypt k (lib.encrypt k n x) = .ok x) (salt fresh : Bytes) (password level : String)
    (e : FernetObj) (h : fernetNew lib salt password level = .ok e) (items : Nat → List Bytes) (path : Nat → String) (fs : String → Option Bytes)
    (hd : OnDisk (some (e.toEncryption lib)) items path fs) (filesize : Nat → Nat) (hf : ∀ k file, fs (path k) = some file → filesize k ≤ file.length)
    (reqs : List Request) (hr : ∀ r ∈ reqs, r.i < (items r.k).length) :
    ∃ e', fernetLoad lib fresh (fernetSave e) password = .ok e' ∧
      serve fs (some ⟨"fernet", e.level⟩) (some (e'.toEncryption lib)) path filesize PyTreeState.init reqs = .ok (reqs.map fun r => (items r.k).getD r.i []) := by
  refine ⟨e, c61_fernet_roundtrip lib salt fresh password level e h, ?_⟩
  exact c35_encrypted_reads_back (some (e.toEncryption lib)) (fun e' he n x => by cases he; exact hlib _ n x) items path fs hd filesize hf reqs hr

/-- **C61, the file is no secret.** It depends on the level and the salt only, not on the password or the key. -/
theorem c61_fernet_file (e : FernetObj) (password : String) (key : Bytes) : fernetSave { e with password := password, key := key } = fernetSave e := rfl

/-- **C61, another password** is not noticed when the file is loaded: the object has the same algorithm and level, so the check of the loader passes. No sample can be
read with it: the error is that of the package. -/
theorem c61_fernet_wrong_password (lib : FernetLib) (salt fresh : Bytes) (password other level : String) (e : FernetObj)
    (h : fernetNew lib salt password level = .ok e) (err : Err)
    (hauth : ∀ n x, lib.decrypt (lib.derive other salt) (lib.encrypt (lib.derive password salt) n x) = .error err)
    (items : List Bytes) (nonces : Nat → Nat) (path : String) (fs : String → Option Bytes)
    (hfile : fs path = some (writeItems (some (e.toEncryption lib)) nonces items))
    (hsz : 8 + 4 * items.length + ((items.mapIdx fun i x => encryptItem (some (e.toEncryption lib)) (nonces (i + 1)) x).map List.length).sum < 2 ^ 32)
    (filesize : Nat) (hf : ∀ file, fs path = some file → filesize ≤ file.length) (k i begin : Nat) (hi : i < items.length) :
    ∃ e', fernetLoad lib fresh (fernetSave e) other = .ok e' ∧ validateEncryption ⟨"fernet", e.level⟩ (some (e'.toEncryption lib)) = .ok (e'.toEncryption lib) ∧
      loadItem fs (some ⟨"fernet", e.level⟩) (some (e'.toEncryption lib)) PyTreeState.init path k (begin + i) begin filesize = .error err := by
  unfold fernetNew at h
  simp only [bind, Except.bind] at h
  cases hl : levelOf level with
  | error err => rw [hl] at h; cases h
  | ok l =>
    rw [hl] at h
    cases h
    refine ⟨⟨other, l, salt, lib.derive other salt⟩, ?_, ?_, ?_⟩
    · unfold fernetSave
      rw [fernetLoad_state, String.toList_ofList, c61_base64]
      rfl
    · simp [validateEncryption, FernetObj.toEncryption]
    · unfold loadItem openChunk PyTreeState.init
      rw [if_neg (by simp), hfile]
      simp only
      rw [if_pos (hf _ hfile)]
      have hoff : itemOffset (begin + i) begin = (1 + i) * 4 := by
        unfold itemOffset; rw [if_pos (by omega), show begin + i - begin = i by omega]
      simp only [bind, Except.bind, loadEncrypted, validateEncryption, FernetObj.toEncryption, ne_eq, not_true_eq_false, if_false]
      cases l with
      | chunk =>
        simp only
        rw [hfile]
        simp only [writeItems, createChunk, FernetObj.toEncryption, if_true]
        rw [hauth]
      | sample =>
        simp only [encryptItem, FernetObj.toEncryption, if_true] at hsz
        rw [← List.length_flatten] at hsz
        simp only [writeItems, createChunk, FernetObj.toEncryption, encryptItem, reduceCtorEq, if_false, if_true] at hfile
        simp only
        rw [hfile]
        simp only
        rw [hoff, loadData_chunkBytes _ i (by simpa using hi) (by rw [List.length_mapIdx]; omega)]
        simp only [List.getElem_mapIdx]
        rw [hauth]

/-- **C61, a file without a salt** (the `state_dict` alone, as it is in `index.json`) is refused. -/
theorem c61_fernet_no_salt (lib : FernetLib) (fresh : Bytes) (level password : String) :
    fernetLoad lib fresh (dumps (.obj ["algorithm", "level"] [.str "fernet", .str level])) password = .error .keyError := by
  unfold fernetLoad
  rw [loads_dumps _ (by simp [Json.WF, WFList])]
  rfl

/-- A toy: the key is the password and the salt, which are put before the text. -/
def toyFernet : FernetLib where
  derive p s := p.toList.map Char.toUInt8 ++ s
  encrypt k _ x := k ++ x
  decrypt k y := if k.isPrefixOf y then .ok (y.drop k.length) else .error .valueError

theorem toyFernet_sound : ∀ k n x, toyFernet.decrypt k (toyFernet.encrypt k n x) = .ok x := by
  intro k n x
  simp [toyFernet]

example : ∃ e, fernetNew toyFernet [1, 2, 3] "pw" "chunk" = .ok e ∧ fernetSave e = "{\"algorithm\": \"fernet\", \"level\": \"chunk\", \"salt\": \"AQID\"}" ∧
    (∀ n x, toyFernet.decrypt (toyFernet.derive "qw" [1, 2, 3]) (toyFernet.encrypt (toyFernet.derive "pw" [1, 2, 3]) n x) = .error .valueError) ∧
    OnDisk (some (e.toEncryption toyFernet)) demoItemsOf demoPath (demoFs (some (e.toEncryption toyFernet))) := by
  refine ⟨_, rfl, by decide +kernel, fun n x => rfl, ⟨?_⟩⟩
  intro k _
  refine ⟨fun i => 7 + i, by simp [demoFs, demoPath], ?_⟩
  unfold demoItemsOf
  split <;> decide

/-! ### RSA -/

/-- What is supposed of the package: PEM texts are not empty and are read back with the password they were written with and no other; `limit` is the length of the longest text that
can be encrypted (190 bytes for keys of 2048 bits and OAEP with SHA-256), and shorter ones are decrypted. -/
structure RsaLaws {K P : Type} (lib : RsaLib K P) (limit : Nat) : Prop where
  private_ne : ∀ pw k, lib.privatePem pw k ≠ ""
  public_ne : ∀ p, lib.publicPem p ≠ ""
  loadPrivate : ∀ pw k, lib.loadPrivate (lib.privatePem pw k) pw = .ok k
  plain : ∀ pw k, lib.loadPrivate (lib.privatePem none k) (some pw) = .error .typeError
  wrong : ∀ pw qw k, pw ≠ qw → lib.loadPrivate (lib.privatePem (some pw) k) (some qw) = .error .valueError
  loadPublic : ∀ p, lib.loadPublic (lib.publicPem p) = .ok p
  short : ∀ k n x, x.length ≤ limit → ∃ y, lib.encrypt (lib.pub k) n x = .ok y ∧ lib.decrypt k y = .ok x
  long : ∀ p n x, limit < x.length → lib.encrypt p n x = .error .valueError

theorem rsaGetState_get {K P : Type} (lib : RsaLib K P) (e : RsaObj K P) :
    stateGet "password" (rsaGetState lib e) = .ok (.str e.password) ∧ stateGet "level" (rsaGetState lib e) = .ok (.str e.level.text) ∧
    stateGet "private_key" (rsaGetState lib e) = .ok (jsonOfPem (e.privateKey.map (lib.privatePem (pemPassword e.password)))) ∧
    stateGet "public_key" (rsaGetState lib e) = .ok (jsonOfPem (e.publicKey.map lib.publicPem)) := ⟨rfl, rfl, rfl, rfl⟩

theorem loadIf_pem {A : Type} (o : Option A) (pem : A → String) (load : String → Py A) (hne : ∀ a, pem a ≠ "") (hload : ∀ a, load (pem a) = .ok a) :
    ((pemOfState (jsonOfPem (o.map pem))).bind fun s => loadIf load s) = .ok o := by
  cases o with
  | none => rfl
  | some a => simp [jsonOfPem, pemOfState, Except.bind, hne, loadIf, hload, Except.map]

/-- **C61, RSA objects survive pickling**, also those without one of the keys or without a password; this is how the workers get theirs. -/
theorem c61_rsa_pickle {K P : Type} (lib : RsaLib K P) (limit : Nat) (hlib : RsaLaws lib limit) (e : RsaObj K P) : rsaSetState lib (rsaGetState lib e) = .ok e := by
  obtain ⟨h1, h2, h3, h4⟩ := rsaGetState_get lib e
  have hk := loadIf_pem e.privateKey (lib.privatePem (pemPassword e.password)) (fun s => lib.loadPrivate s (pemPassword e.password))
    (fun a => hlib.private_ne _ a) (fun a => hlib.loadPrivate _ a)
  have hp := loadIf_pem e.publicKey lib.publicPem lib.loadPublic hlib.public_ne hlib.loadPublic
  unfold rsaSetState
  simp only [bind, h1, h2, h3, h4, Except.bind, passwordOfState, levelOfState, levelOf_text] at *
  cases hq : pemOfState (jsonOfPem (e.privateKey.map (lib.privatePem (pemPassword e.password)))) with
  | error err => rw [hq] at hk; cases hk
  | ok kp =>
    rw [hq] at hk
    simp only at hk ⊢
    rw [hk]
    simp only
    cases hq2 : pemOfState (jsonOfPem (e.publicKey.map lib.publicPem)) with
    | error err => rw [hq2] at hp; cases hp
    | ok qp =>
      rw [hq2] at hp
      simp only at hp ⊢
      rw [hp]
      rfl

/-- **C61, RSA.** An object that is saved is loaded as it was; the password that is given to `load` plays no part, for the one of the object is in the file. -/
theorem c61_rsa_roundtrip {K P : Type} (lib : RsaLib K P) (limit : Nat) (hlib : RsaLaws lib limit) (e : RsaObj K P) (fresh : K) (anyPassword : String) :
    rsaLoad lib fresh (rsaSave lib e) anyPassword = .ok e := by
  have hwf : (rsaGetState lib e).WF := by
    have hj : ∀ o, (jsonOfPem o).WF := by intro o; cases o <;> simp [jsonOfPem, Json.WF]
    simp [rsaGetState, Json.WF, WFList, hj]
  obtain ⟨_, h2, _, _⟩ := rsaGetState_get lib e
  unfold rsaLoad rsaSave
  rw [loads_dumps _ hwf]
  simp only [bind, Except.bind, h2, levelOfState, levelOf_text, rsaNew, pure, Except.pure]
  exact c61_rsa_pickle lib limit hlib e

/-- **C61, the password is in the file** beside the private key that it protects. -/
theorem c61_rsa_password_in_file {K P : Type} (lib : RsaLib K P) (e : RsaObj K P) :
    ∃ before after, (rsaSave lib e).toList = before ++ "\"password\": \"".toList ++ escape e.password.toList ++ '"' :: after := by
  refine ⟨"{\"private_key\": ".toList ++ (jsonOfPem (e.privateKey.map (lib.privatePem (pemPassword e.password)))).dump ++ ", \"public_key\": ".toList ++
    (jsonOfPem (e.publicKey.map lib.publicPem)).dump ++ ", ".toList, ", \"level\": \"".toList ++ escape e.level.text.toList ++ "\"}".toList, ?_⟩
  unfold rsaSave dumps rsaGetState
  rw [String.toList_ofList]
  simp only [Json.dump, dumpObj, dumpFields, dumpStr]
  rw [show escape "private_key".toList = "private_key".toList by decide, show escape "public_key".toList = "public_key".toList by decide,
    show escape "password".toList = "password".toList by decide, show escape "level".toList = "level".toList by decide]
  simp

/-- **C61, key files.** The two keys of an object with a password are read with this password into any other object; with another one they are refused. -/
theorem c61_rsa_keys {K P : Type} (lib : RsaLib K P) (limit : Nat) (hlib : RsaLaws lib limit) (e e' : RsaObj K P) (k : K) (p : P) (hk : e.privateKey = some k)
    (hp : e.publicKey = some p) (hpw : e.password ≠ "") :
    ∃ a b, rsaSaveKeys lib e = .ok (a, b) ∧ rsaLoadKeys lib e' a b e.password = .ok ⟨e'.password, e'.level, some k, some p⟩ ∧
      ∀ other, other ≠ e.password → rsaLoadKeys lib e' a b other = .error .valueError := by
  refine ⟨lib.privatePem (some e.password) k, lib.publicPem p, ?_, ?_, ?_⟩
  · unfold rsaSaveKeys
    rw [hk, hp]
    simp [pemPassword, hpw, hlib.private_ne, hlib.public_ne]
  · unfold rsaLoadKeys
    simp only [bind, Except.bind, hlib.loadPrivate, hlib.loadPublic, pure, Except.pure]
  · intro other ho
    unfold rsaLoadKeys
    simp only [bind, Except.bind]
    rw [hlib.wrong _ _ _ (fun h => ho h.symm)]

/-- **C61, key files without a password** are written but cannot be read: `load_keys` always gives a password to the package. -/
theorem c61_rsa_keys_unreadable {K P : Type} (lib : RsaLib K P) (limit : Nat) (hlib : RsaLaws lib limit) (e e' : RsaObj K P) (k : K) (p : P)
    (hk : e.privateKey = some k) (hp : e.publicKey = some p) (hpw : e.password = "") :
    ∃ a b, rsaSaveKeys lib e = .ok (a, b) ∧ ∀ password, rsaLoadKeys lib e' a b password = .error .typeError := by
  refine ⟨lib.privatePem none k, lib.publicPem p, ?_, ?_⟩
  · unfold rsaSaveKeys
    rw [hk, hp]
    simp [pemPassword, hpw, hlib.private_ne, hlib.public_ne]
  · intro password
    unfold rsaLoadKeys
    simp only [bind, Except.bind]
    rw [hlib.plain]

theorem rsaEncryptItems_ok {K P : Type} (lib : RsaLib K P) (limit : Nat) (hlib : RsaLaws lib limit) (e : RsaObj K P) (k : K) (hp : e.publicKey = some (lib.pub k))
    (nonce : Nat → Nat) (items : List Bytes) (hi : ∀ x ∈ items, x.length ≤ limit) (i : Nat) :
    rsaEncryptItems lib e nonce i items = .ok (items.mapIdx fun j x => (e.toEncryption lib).encrypt (nonce (i + j + 1)) x) := by
  induction items generalizing i with
  | nil => rfl
  | cons x xs ih =>
    obtain ⟨y, hy, _⟩ := hlib.short k (nonce (i + 1)) x (hi x (by simp))
    simp only [rsaEncryptItems, rsaEncrypt, hp, hy, bind, Except.bind]
    rw [ih (fun x hx => hi x (by simp [hx]))]
    simp only [pure, Except.pure, List.mapIdx_cons]
    congr 2
    · simp only [RsaObj.toEncryption, rsaEncrypt, hp, Nat.add_zero, hy]
    · congr 1
      funext j x
      rw [show i + 1 + j + 1 = i + (j + 1) + 1 by omega]

/-- **C61, data outlives the RSA object.** If what is encrypted is short enough, chunks are written, and are read in any order by the object loaded from its file. -/
theorem c61_rsa_reads {K P : Type} (lib : RsaLib K P) (limit : Nat) (hlib : RsaLaws lib limit) (key fresh : K) (password level anyPassword : String) (e : RsaObj K P)
    (h : rsaNew lib key password level = .ok e) (items : Nat → List Bytes)
    (hfit : ∀ k, (e.level = .chunk → items k ≠ [] → (chunkBytes (items k)).length ≤ limit) ∧ (e.level = .sample → ∀ x ∈ items k, x.length ≤ limit))
    (path : Nat → String) (fs : String → Option Bytes)
    (hfiles : ∀ k, items k ≠ [] → ∃ nonce file, rsaWriteItems lib e nonce (items k) = .ok file ∧ fs (path k) = some file ∧
      8 + 4 * (items k).length + (((items k).mapIdx fun i x => encryptItem (some (e.toEncryption lib)) (nonce (i + 1)) x).map List.length).sum < 2 ^ 32)
    (filesize : Nat → Nat) (hf : ∀ k file, fs (path k) = some file → filesize k ≤ file.length)
    (reqs : List Request) (hr : ∀ r ∈ reqs, r.i < (items r.k).length) :
    ∃ e', rsaLoad lib fresh (rsaSave lib e) anyPassword = .ok e' ∧
      serve fs (some ⟨"rsa", e.level⟩) (some (e'.toEncryption lib)) path filesize PyTreeState.init reqs = .ok (reqs.map fun r => (items r.k).getD r.i []) := by
  refine ⟨e, c61_rsa_roundtrip lib limit hlib e fresh anyPassword, ?_⟩
  obtain ⟨hk, hp⟩ : e.privateKey = some key ∧ e.publicKey = some (lib.pub key) := by
    unfold rsaNew at h
    simp only [bind, Except.bind] at h
    cases hl : levelOf level with
    | error err => rw [hl] at h; cases h
    | ok l => rw [hl] at h; cases h; exact ⟨rfl, rfl⟩
  have henc : ∀ n x, x.length ≤ limit → (e.toEncryption lib).decrypt ((e.toEncryption lib).encrypt n x) = .ok x := by
    intro n x hx
    obtain ⟨y, h1, h2⟩ := hlib.short key n x hx
    simp only [RsaObj.toEncryption, rsaEncrypt, rsaDecrypt, hk, hp, h1, h2]
  refine c35_reads_back_on (some (e.toEncryption lib)) items ?_ path fs ⟨?_⟩ filesize hf reqs hr
  · intro e' he
    cases he
    exact ⟨fun hl n k hne => henc n _ ((hfit k).1 hl hne), fun hl n k x hx => henc n x ((hfit k).2 hl x hx)⟩
  · intro k hne
    obtain ⟨nonce, file, h1, h2, h3⟩ := hfiles k hne
    refine ⟨nonce, ?_, h3⟩
    rw [h2]
    congr 1
    unfold rsaWriteItems at h1
    unfold writeItems createChunk
    cases hl : e.level with
    | chunk =>
      rw [hl] at h1
      simp only [RsaObj.toEncryption, hl, encryptItem, reduceCtorEq, if_false, if_true, mapIdx_id]
      simp only at h1
      rw [h1]
    | sample =>
      rw [hl] at h1
      simp only at h1
      rw [rsaEncryptItems_ok lib limit hlib e key hp nonce (items k) ((hfit k).2 hl)] at h1
      simp only [Except.map, Except.ok.injEq, Nat.zero_add] at h1
      rw [← h1]
      have hlv : (e.toEncryption lib).level = .sample := hl
      simp only [encryptItem, hlv, reduceCtorEq, if_false, if_true]

/-- **C61, RSA encrypts little.** With the level `chunk` no chunk is written whose samples fill more than the limit, whatever they are: with 190 bytes, none with 46 samples or more.
With the level `sample` no chunk with a longer sample is written. -/
theorem c61_rsa_limit {K P : Type} (lib : RsaLib K P) (limit : Nat) (hlib : RsaLaws lib limit) (e : RsaObj K P) (p : P) (hp : e.publicKey = some p)
    (nonce : Nat → Nat) (items : List Bytes) :
    (e.level = .chunk → limit < 8 + 4 * items.length + items.flatten.length → rsaWriteItems lib e nonce items = .error .valueError) ∧
    (e.level = .chunk → limit = 190 → 46 ≤ items.length → rsaWriteItems lib e nonce items = .error .valueError) ∧
    (e.level = .sample → (∃ x ∈ items, limit < x.length) → ∃ err, rsaWriteItems lib e nonce items = .error err) := by
  have hchunk : e.level = .chunk → limit < 8 + 4 * items.length + items.flatten.length → rsaWriteItems lib e nonce items = .error .valueError := by
    intro hl hlen
    unfold rsaWriteItems rsaEncrypt
    rw [hl, hp]
    simp only
    exact hlib.long _ _ _ (by rw [chunkBytes_length]; omega)
  refine ⟨hchunk, fun hl h190 hn => hchunk hl (by omega), ?_⟩
  rintro hl ⟨x, hx, hlen⟩
  unfold rsaWriteItems
  rw [hl]
  simp only
  have : ∀ (l : List Bytes) (i : Nat), x ∈ l → ∃ err, rsaEncryptItems lib e nonce i l = .error err := by
    intro l
    induction l with
    | nil => intro i h; cases h
    | cons y l ih =>
      intro i hm
      simp only [rsaEncryptItems, bind, Except.bind]
      cases hy : rsaEncrypt lib e (nonce (i + 1)) y with
      | error err => exact ⟨err, rfl⟩
      | ok z =>
        rcases List.mem_cons.1 hm with rfl | hm
        · unfold rsaEncrypt at hy
          rw [hp] at hy
          simp only at hy
          rw [hlib.long _ _ _ hlen] at hy
          cases hy
        · obtain ⟨err, he⟩ := ih (i + 1) hm
          exact ⟨err, by simp only [he]⟩
  obtain ⟨err, he⟩ := this items 0 hx
  exact ⟨err, by rw [he]; rfl⟩

/-- A toy package: keys are numbers, a PEM text is the key and its password in JSON, and texts of up to `limit` bytes are encrypted by adding a nonce. -/
def toyRsa (limit : Nat) : RsaLib Nat Nat where
  pub k := k
  encrypt _ n x := if x.length ≤ limit then .ok (UInt8.ofNat n :: x) else .error .valueError
  decrypt _ y := .ok y.tail
  privatePem pw k := dumps (.arr [jsonOfPem pw, .num k])
  publicPem p := dumps (.num p)
  loadPrivate s pw := do
    match ← loads s with
    | .arr [.null, .num k] => if pw = none then .ok k.toNat else .error .typeError
    | .arr [.str q, .num k] => if pw = none then .error .typeError else if pw = some q then .ok k.toNat else .error .valueError
    | _ => .error .valueError
  loadPublic s := do
    match ← loads s with
    | .num p => .ok p.toNat
    | _ => .error .valueError

theorem dumpInt_ne (i : Int) : dumpInt i ≠ [] := by
  cases i with
  | ofNat n => exact Nat.toDigits_ne_nil
  | negSucc n => intro h; cases h

theorem toyRsa_laws (limit : Nat) : RsaLaws (toyRsa limit) limit where
  private_ne pw k := by
    intro h
    have := congrArg String.toList h
    simp only [toyRsa, dumps, Json.dump, dumpArr] at this
    rw [String.toList_ofList] at this
    cases this
  public_ne p := by
    intro h
    have := congrArg String.toList h
    simp only [toyRsa, dumps, Json.dump] at this
    rw [String.toList_ofList] at this
    exact dumpInt_ne _ this
  loadPrivate pw k := by
    simp only [toyRsa]
    rw [loads_dumps _ (by cases pw <;> simp [Json.WF, WFList, jsonOfPem])]
    cases pw <;> simp [jsonOfPem, bind, Except.bind]
  plain pw k := by
    simp only [toyRsa]
    rw [loads_dumps _ (by simp [Json.WF, WFList, jsonOfPem])]
    rfl
  wrong pw qw k hne := by
    simp only [toyRsa]
    rw [loads_dumps _ (by simp [Json.WF, WFList, jsonOfPem])]
    simp [jsonOfPem, bind, Except.bind, Ne.symm hne]
  loadPublic p := by
    simp only [toyRsa]
    rw [loads_dumps _ (by simp [Json.WF])]
    rfl
  short k n x hx := ⟨UInt8.ofNat n :: x, by simp [toyRsa, hx], rfl⟩
  long p n x hx := by simp only [toyRsa]; rw [if_neg (by omega)]

example : ∃ e, rsaNew (toyRsa 190) 7 "pw" "sample" = .ok e ∧ rsaLoad (toyRsa 190) 8 (rsaSave (toyRsa 190) e) "other" = .ok e ∧
    rsaWriteItems (toyRsa 190) e id [[1, 2], [3]] = .ok (chunkBytes [[1, 1, 2], [2, 3]]) ∧ e.publicKey = some 7 := by
  refine ⟨_, rfl, c61_rsa_roundtrip _ 190 (toyRsa_laws 190) _ _ _, by rfl, rfl⟩

/-- **C61, a missing key.** An object without a public key writes nothing, one without a private key reads nothing: both raise instead of passing the data through. -/
theorem c61_rsa_missing_key {K P : Type} (lib : RsaLib K P) (e : RsaObj K P) :
    (e.publicKey = none → ∀ nonce items, items ≠ [] → rsaWriteItems lib e nonce items = .error .attributeError) ∧
    (e.privateKey = none → ∀ data, rsaDecrypt lib e data = .error .attributeError) := by
  constructor
  · intro h nonce items hne
    unfold rsaWriteItems
    cases e.level with
    | chunk => simp only [rsaEncrypt, h]
    | sample =>
      cases items with
      | nil => exact absurd rfl hne
      | cons x xs => simp only [rsaEncryptItems, rsaEncrypt, h, bind, Except.bind, Except.map]
  · intro h data
    simp only [rsaDecrypt, h]

end LitData.Props
