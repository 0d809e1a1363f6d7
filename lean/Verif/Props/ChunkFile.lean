import Verif.Lemmas.ChunkFile

/-! Properties C10 and C35: chunk files decode to what was written, encrypted or not. -/

namespace LitData.Props
open LitData

/-- **C10.** Item `i` of a chunk file is the `i`-th byte string written, and the file starts with the
number of items; for every list of byte strings that fits in `uint32` offsets. -/
theorem c10_chunk_roundtrip (items : List Bytes) (begin : Nat)
    (hs : 8 + 4 * items.length + (items.map List.length).sum < 2 ^ 32) :
    u32s ((chunkBytes items).take 4) = .ok [items.length] ∧
    (∀ i (h : i < items.length), loadData (chunkBytes items) (itemOffset (begin + i) begin) = .ok items[i]) ∧
    (chunkBytes items).length = 8 + 4 * items.length + (items.map List.length).sum := by
  rw [← List.length_flatten] at hs ⊢
  refine ⟨?_, ?_, ?_⟩
  · have : (chunkBytes items).take 4 = le32 items.length ++ [] := by
      unfold chunkBytes
      rw [List.append_assoc, List.take_append_of_le_length (by simp [le32_length]), List.append_nil]
      rfl
    rw [this, u32s_le32 _ (by omega)]
    rfl
  · intro i h
    unfold itemOffset
    rw [if_pos (by omega), show begin + i - begin = i by omega]
    exact loadData_chunkBytes items i h (by omega)
  · rw [chunkBytes_length]; omega

/-- Past the last item the reader raises or returns something unrelated, but never reads an offset pair
beyond the file: an index at or after the end of the offsets of an empty chunk raises. -/
theorem c10_empty_chunk_raises (begin i : Nat) :
    loadData (chunkBytes []) (itemOffset (begin + i) begin) = .error .valueError := by
  unfold itemOffset
  rw [if_pos (by omega), show begin + i - begin = i by omega]
  match i with
  | 0 => rfl
  | 1 => rfl
  | n + 2 =>
    unfold loadData readAt
    rw [List.drop_eq_nil_of_le (by rw [chunkBytes_length]; simp; omega)]
    rfl

/-- **C10 needs its size bound.** An item of `2^32` bytes or more cannot be read back: offsets are stored
modulo `2^32` without any check in the writer. -/
theorem c10_too_big_not_read (x : Bytes) (h : 2 ^ 32 ≤ x.length) (off : Nat) :
    loadData (chunkBytes [x]) off ≠ .ok x := by
  intro hl
  have := loadData_length _ _ _ hl
  omega

/-- An encryption that decrypts what it encrypted. -/
def Encryption.Sound (e : Encryption) : Prop := ∀ nonce x, e.decrypt (e.encrypt nonce x) = .ok x

/-- The encryption decrypts what it encrypted of the chunks `items`: the whole chunks or their samples. -/
structure Encryption.SoundOn (e : Encryption) (items : Nat → List Bytes) : Prop where
  chunk : e.level = .chunk → ∀ nonce k, items k ≠ [] → e.decrypt (e.encrypt nonce (chunkBytes (items k))) = .ok (chunkBytes (items k))
  sample : e.level = .sample → ∀ nonce k, ∀ x ∈ items k, e.decrypt (e.encrypt nonce x) = .ok x

/-- A dataset on disk: `items k` are the plain samples of chunk `k`, stored at `path k`. -/
structure OnDisk (enc : Option Encryption) (items : Nat → List Bytes) (path : Nat → String)
    (fs : String → Option Bytes) : Prop where
  files : ∀ k, items k ≠ [] → ∃ nonce, fs (path k) = some (writeItems enc nonce (items k)) ∧
    8 + 4 * (items k).length +
      (((items k).mapIdx fun i x => encryptItem enc (nonce (i + 1)) x).map List.length).sum < 2 ^ 32

/-- A request: chunk `k`, item `i` of the chunk, whose first item has index `begin`. -/
structure Request where
  k : Nat
  i : Nat
  begin : Nat

/-- Serve requests one after the other with one loader; `filesize k` is the size in `index.json`. -/
def serve (fs : String → Option Bytes) (cfg : Option EncConfig) (enc : Option Encryption) (path : Nat → String)
    (filesize : Nat → Nat) : PyTreeState → List Request → Py (List Bytes)
  | _, [] => .ok []
  | st, r :: rest => do
    let (x, st) ← loadItem fs cfg enc st (path r.k) r.k (r.begin + r.i) r.begin (filesize r.k)
    let xs ← serve fs cfg enc path filesize st rest
    return x :: xs

/-- What the loader keeps in memory comes from the files. -/
structure LoaderOk (enc : Option Encryption) (items : Nat → List Bytes) (path : Nat → String)
    (fs : String → Option Bytes) (st : PyTreeState) : Prop where
  handle : ∀ p, st.path = some p → st.handle = fs p
  decrypted : ∀ e k d, enc = some e → e.level = .chunk → st.decrypted = some (k, d) → d = chunkBytes (items k)

theorem mapIdx_id (l : List Bytes) : l.mapIdx (fun _ x => x) = l := by
  apply List.ext_getElem <;> simp

theorem serve_step (enc : Option Encryption) (items : Nat → List Bytes) (hsound : ∀ e, enc = some e → Encryption.SoundOn e items)
    (path : Nat → String) (fs : String → Option Bytes)
    (hd : OnDisk enc items path fs) (filesize : Nat → Nat)
    (hf : ∀ k file, fs (path k) = some file → filesize k ≤ file.length)
    (st : PyTreeState) (hst : LoaderOk enc items path fs st) (r : Request) (hi : r.i < (items r.k).length) :
    ∃ st', loadItem fs (enc.map Encryption.config) enc st (path r.k) r.k (r.begin + r.i) r.begin (filesize r.k)
      = .ok ((items r.k)[r.i], st') ∧ LoaderOk enc items path fs st' := by
  obtain ⟨nonce, hfile, hsz⟩ := hd.files r.k (by intro h; rw [h] at hi; simp at hi)
  have hoff : itemOffset (r.begin + r.i) r.begin = (1 + r.i) * 4 := by
    unfold itemOffset; rw [if_pos (by omega), show r.begin + r.i - r.begin = r.i by omega]
  have hopen : ∃ st1, openChunk fs st (path r.k) (filesize r.k) = .ok st1 ∧
      LoaderOk enc items path fs st1 ∧ st1.handle = fs (path r.k) := by
    unfold openChunk
    split
    · rename_i h; exact ⟨st, rfl, hst, hst.handle _ h⟩
    · rw [hfile]
      simp only
      rw [if_pos (hf _ _ hfile)]
      refine ⟨_, rfl, ⟨?_, hst.decrypted⟩, rfl⟩
      intro p hp
      simp only [Option.some.injEq] at hp
      rw [← hp, hfile]
  obtain ⟨st1, ho, hst1, hh⟩ := hopen
  unfold loadItem
  rw [ho, hoff]
  simp only [bind, Except.bind]
  match enc, hsound, hfile, hsz, hst1 with
  | none, _, hfile, hsz, hst1 =>
    simp only [Option.map_none]
    rw [hh, hfile]
    simp only [writeItems, createChunk, encryptItem]
    rw [mapIdx_id]
    simp only [encryptItem] at hsz
    rw [mapIdx_id, ← List.length_flatten] at hsz
    rw [loadData_chunkBytes _ _ hi (by omega)]
    exact ⟨st1, rfl, hst1⟩
  | some e, hsound, hfile, hsz, hst1 =>
    have hs := hsound e rfl
    have hne : items r.k ≠ [] := by intro h; rw [h] at hi; simp at hi
    simp only [Option.map_some, loadEncrypted, validateEncryption, Encryption.config, ne_eq, not_true_eq_false,
      if_false, bind, Except.bind]
    cases hl : e.level with
    | chunk =>
      simp only [encryptItem, hl, reduceCtorEq, if_false] at hsz
      rw [mapIdx_id, ← List.length_flatten] at hsz
      simp only [writeItems, createChunk, encryptItem, hl, reduceCtorEq, if_false, if_true] at hfile
      rw [mapIdx_id] at hfile
      simp only
      cases hdec : st1.decrypted with
      | none =>
        simp only
        rw [hfile]
        simp only
        rw [hs.chunk hl _ _ hne]
        simp only
        rw [loadData_chunkBytes _ _ hi (by omega)]
        refine ⟨_, rfl, ⟨hst1.handle, ?_⟩⟩
        intro e' k d _ _ hk
        simp only [Option.some.injEq, Prod.mk.injEq] at hk
        rw [← hk.2, hk.1]
      | some kd =>
        obtain ⟨k, d⟩ := kd
        simp only
        by_cases hk : k = r.k
        · simp only [hk, if_true]
          have := hst1.decrypted e k d rfl hl hdec
          rw [this, hk, loadData_chunkBytes _ _ hi (by omega)]
          exact ⟨st1, rfl, hst1⟩
        · simp only [hk, if_false]
          rw [hfile]
          simp only
          rw [hs.chunk hl _ _ hne]
          simp only
          rw [loadData_chunkBytes _ _ hi (by omega)]
          refine ⟨_, rfl, ⟨hst1.handle, ?_⟩⟩
          intro e' k d _ _ hk
          simp only [Option.some.injEq, Prod.mk.injEq] at hk
          rw [← hk.2, hk.1]
    | sample =>
      simp only [encryptItem, hl, if_true] at hsz
      rw [← List.length_flatten] at hsz
      simp only [writeItems, createChunk, encryptItem, hl, reduceCtorEq, if_false, if_true] at hfile
      simp only
      rw [hfile]
      simp only
      rw [loadData_chunkBytes _ r.i (by simpa using hi) (by rw [List.length_mapIdx]; omega)]
      simp only [List.getElem_mapIdx]
      rw [hs.sample hl _ _ _ (List.getElem_mem _)]
      exact ⟨st1, rfl, hst1⟩

/-- **C35.** The same of an encryption that need only decrypt what it encrypted of these chunks, such as one that refuses long texts. -/
theorem c35_reads_back_on (enc : Option Encryption) (items : Nat → List Bytes) (hsound : ∀ e, enc = some e → Encryption.SoundOn e items)
    (path : Nat → String) (fs : String → Option Bytes)
    (hd : OnDisk enc items path fs) (filesize : Nat → Nat)
    (hf : ∀ k file, fs (path k) = some file → filesize k ≤ file.length)
    (reqs : List Request) (hr : ∀ r ∈ reqs, r.i < (items r.k).length) :
    serve fs (enc.map Encryption.config) enc path filesize PyTreeState.init reqs =
      .ok (reqs.map fun r => (items r.k).getD r.i []) := by
  have h0 : LoaderOk enc items path fs PyTreeState.init := ⟨by simp [PyTreeState.init], by simp [PyTreeState.init]⟩
  generalize PyTreeState.init = st at h0 ⊢
  induction reqs generalizing st with
  | nil => rfl
  | cons r rest ih =>
    have hi := hr r (by simp)
    obtain ⟨st', h1, h2⟩ := serve_step enc items hsound path fs hd filesize hf st h0 r hi
    unfold serve
    rw [h1]
    simp only [bind, Except.bind]
    rw [ih (fun r hr' => hr r (List.mem_cons_of_mem _ hr')) st' h2]
    simp only [pure, Except.pure, List.map_cons]
    rw [List.getD_eq_getElem?_getD, List.getElem?_eq_getElem hi]
    rfl

/-- **C35.** For any encryption that decrypts what it encrypts, with any nonces, at sample or chunk level,
and also without encryption: a loader given any sequence of requests returns the plain samples. -/
theorem c35_encrypted_reads_back (enc : Option Encryption) (hsound : ∀ e, enc = some e → Encryption.Sound e)
    (items : Nat → List Bytes) (path : Nat → String) (fs : String → Option Bytes)
    (hd : OnDisk enc items path fs) (filesize : Nat → Nat)
    (hf : ∀ k file, fs (path k) = some file → filesize k ≤ file.length)
    (reqs : List Request) (hr : ∀ r ∈ reqs, r.i < (items r.k).length) :
    serve fs (enc.map Encryption.config) enc path filesize PyTreeState.init reqs =
      .ok (reqs.map fun r => (items r.k).getD r.i []) := by
  exact c35_reads_back_on enc items (fun e he => ⟨fun _ n k _ => hsound e he n _, fun _ n k x _ => hsound e he n x⟩) path fs hd filesize hf reqs hr

/-- **C35.** Reading an encrypted chunk without an encryption object, with another algorithm or with
another level raises `ValueError`, whatever the state of the loader, once the file is there. -/
theorem c35_mismatch_refused (fs : String → Option Bytes) (cfg : EncConfig) (enc : Option Encryption)
    (st : PyTreeState) (path : String) (k index begin filesize : Nat)
    (hfile : ∃ file, fs path = some file ∧ filesize ≤ file.length)
    (hmis : ∀ e, enc = some e → e.algorithm ≠ cfg.algorithm ∨ e.level ≠ cfg.level) :
    loadItem fs (some cfg) enc st path k index begin filesize = .error .valueError := by
  obtain ⟨file, h1, h2⟩ := hfile
  have hopen : ∃ st1, openChunk fs st path filesize = .ok st1 := by
    unfold openChunk
    split
    · exact ⟨_, rfl⟩
    · rw [h1]; simp only; rw [if_pos h2]; exact ⟨_, rfl⟩
  obtain ⟨st1, ho⟩ := hopen
  have hv : validateEncryption cfg enc = .error .valueError := by
    unfold validateEncryption
    split
    · rfl
    · rename_i e
      rcases hmis e rfl with h | h
      · rw [if_pos h]
      · by_cases ha : e.algorithm ≠ cfg.algorithm
        · rw [if_pos ha]
        · rw [if_neg ha, if_pos h]
  unfold loadItem
  rw [ho]
  simp only [bind, Except.bind, loadEncrypted, hv]

/-- **A closed loader cannot reopen the same chunk.** `close` drops the handle but keeps the path, so the
next read of the same chunk by the same loader raises `AssertionError`. -/
theorem c10_closed_loader_same_chunk_raises (fs : String → Option Bytes) (st : PyTreeState) (path : String)
    (hp : st.path = some path) (k index begin filesize : Nat) (enc : Option Encryption) :
    loadItem fs none enc (closeLoader st) path k index begin filesize = .error .assertion := by
  unfold loadItem openChunk closeLoader
  simp only [hp, if_true, bind, Except.bind]

/-! Cases that meet the hypotheses: a toy cipher, two chunks. -/

/-- Adds one to each byte and prepends the nonce. -/
def toyCipher (l : EncLevel) : Encryption :=
  ⟨"toy", l, fun n x => UInt8.ofNat n :: x.map (· + 1), fun x => .ok (x.tail.map (· - 1))⟩

theorem toyCipher_sound (l : EncLevel) : Encryption.Sound (toyCipher l) := by
  intro n x
  simp only [toyCipher, List.tail_cons, List.map_map]
  rw [show ((fun b : UInt8 => b - 1) ∘ fun b => b + 1) = id by funext b; simp]
  simp

example : u32s ((chunkBytes [[1, 2, 3], [], [4]]).take 4) = .ok [3] ∧
    loadData (chunkBytes [[1, 2, 3], [], [4]]) (itemOffset 12 10) = .ok [4] := by decide +kernel

def demoItemsOf (k : Nat) : List Bytes := if k = 0 then [[1, 2], [3]] else [[4, 5, 6]]

def demoPath (k : Nat) : String := String.ofList (List.replicate k 'a')

def demoFs (enc : Option Encryption) (p : String) : Option Bytes :=
  some (writeItems enc (fun i => 7 + i) (demoItemsOf p.toList.length))

example (l : EncLevel) : OnDisk (some (toyCipher l)) demoItemsOf demoPath (demoFs (some (toyCipher l))) := by
  refine ⟨?_⟩
  intro k _
  refine ⟨fun i => 7 + i, by simp [demoFs, demoPath], ?_⟩
  unfold demoItemsOf
  split <;> cases l <;> decide

example : serve (demoFs (some (toyCipher .chunk))) (some ⟨"toy", .chunk⟩) (some (toyCipher .chunk)) demoPath (fun _ => 1)
    PyTreeState.init [⟨0, 1, 0⟩, ⟨1, 0, 2⟩, ⟨0, 0, 0⟩] = .ok [[3], [4, 5, 6], [1, 2]] := by decide +kernel

end LitData.Props
