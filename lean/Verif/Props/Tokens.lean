import Verif.Model.Tokens
import Verif.Props.ChunkFile
import Verif.Props.Config

/-! Property C32: `TokensLoader` serves consecutive blocks of tokens. -/

namespace LitData.Props
open LitData Spec

/-- A chunk of token lists: its file name and the items; a token is the bytes of its value. -/
abbrev TokChunk := String × List (List Bytes)

/-- What `TokensLoader.encode_data` gives for each item: the raw tokens and their number. -/
def tokItems (c : TokChunk) : List WItem := c.2.map fun t => ⟨t.flatten, some t.length⟩

/-- The file written for the chunk. -/
def tokFile (c : TokChunk) : Bytes := createChunk none 0 ((tokItems c).map (·.data))

/-- Its entry in the index. -/
def tokInfo (c : TokChunk) : ChunkInfo := chunkInfo none 0 c.1 (tokItems c)

/-- Block `j` of a list of tokens. -/
def tokBlock (bs : Nat) (toks : List Bytes) (j : Nat) : List Bytes := (toks.drop (j * bs)).take bs

/-- What happens to the loader and to the files: downloads, removals by other processes, and the calls of both threads. -/
inductive TokOp where
  | arrive (k : Nat)
  | vanish (path : String)
  | preLoad (k : Nat)
  | load (k index begin : Nat)
  | close (k : Nat)
  | delete (k : Nat)

/-- One event. A call that raises leaves the state as it was (Python may keep a counter or a known path; the files and the
memory maps are the same). -/
def tokStep (data : List TokChunk) (bs sz : Nat) (s : (String → Option Bytes) × TokState) : TokOp → (String → Option Bytes) × TokState
  | .arrive k => match data[k]? with
    | some c => (fun p => if p = c.1 then some (tokFile c) else s.1 p, s.2)
    | none => s
  | .vanish path => (fun p => if p = path then none else s.1 p, s.2)
  | .preLoad k => match data[k]? with
    | some c => match tokPreLoad s.1 (data.map tokInfo) s.2 k c.1 with
      | .ok st => (s.1, st)
      | .error _ => s
    | none => s
  | .load k index begin => match data[k]? with
    | some c => match tokLoadItem s.1 (data.map tokInfo) bs sz s.2 index k c.1 begin (tokInfo c).chunkBytes with
      | .ok (_, st) => (s.1, st)
      | .error _ => s
    | none => s
  | .close k => (s.1, tokClose s.2 k)
  | .delete k => match data[k]? with
    | some c => ((tokDelete s.1 s.2 k c.1).2, (tokDelete s.1 s.2 k c.1).1)
    | none => s

/-- A run. -/
def tokRun (data : List TokChunk) (bs sz : Nat) (s : (String → Option Bytes) × TokState) (ops : List TokOp) : (String → Option Bytes) × TokState :=
  ops.foldl (tokStep data bs sz) s

/-- Chunks of the same name have the same content, each has a token, and each token has `sz` bytes. -/
structure TokData (data : List TokChunk) (sz : Nat) : Prop where
  name : ∀ c ∈ data, ∀ d ∈ data, c.1 = d.1 → c = d
  size : ∀ c ∈ data, ∀ t ∈ c.2, ∀ x ∈ t, x.length = sz
  pos : 0 < sz

theorem flatten_length_const {sz : Nat} (l : List Bytes) (h : ∀ x ∈ l, x.length = sz) : l.flatten.length = sz * l.length := by
  induction l with
  | nil => simp
  | cons x l ih =>
    rw [List.flatten_cons, List.length_append, h x (by simp), ih fun y hy => h y (List.mem_cons_of_mem _ hy), List.length_cons, Nat.mul_succ]
    omega

theorem flatten_drop_const {sz : Nat} (l : List Bytes) (h : ∀ x ∈ l, x.length = sz) (i : Nat) : l.flatten.drop (sz * i) = (l.drop i).flatten := by
  induction l generalizing i with
  | nil => simp
  | cons x l ih =>
    cases i with
    | zero => simp
    | succ i =>
      have hx := h x (by simp)
      rw [List.flatten_cons, List.drop_succ_cons, ← ih (fun y hy => h y (List.mem_cons_of_mem _ hy)) i, Nat.mul_succ, Nat.add_comm, ← List.drop_drop,
        List.drop_left' hx]

theorem groups_flatten {sz : Nat} (l : List Bytes) (h : ∀ x ∈ l, x.length = sz) (n : Nat) (hn : n ≤ l.length) : groups sz n l.flatten = l.take n := by
  induction l generalizing n with
  | nil => simp at hn; subst hn; rfl
  | cons x l ih =>
    cases n with
    | zero => rfl
    | succ n =>
      have hx := h x (by simp)
      rw [List.flatten_cons, groups, List.take_left' hx, List.drop_left' hx, ih (fun y hy => h y (List.mem_cons_of_mem _ hy)) n (by simpa using hn), List.take_succ_cons]

theorem tokData_flatten (c : TokChunk) : ((tokItems c).map (·.data)).flatten = c.2.flatten.flatten := by
  simp only [tokItems, List.map_map]
  generalize c.2 = l
  induction l with
  | nil => rfl
  | cons t l ih => simp only [List.map_cons, List.flatten_cons, List.flatten_append, ← ih]; rfl

theorem tokFile_drop (c : TokChunk) : (tokFile c).drop ((1 + (tokInfo c).chunkSize + 1) * 4) = c.2.flatten.flatten := by
  have h1 : (tokInfo c).chunkSize = c.2.length := by simp [tokInfo, chunkInfo, tokItems]
  have h2 : (le32 ((tokItems c).map (·.data)).length ++ (chunkOffsets ((tokItems c).map (·.data))).flatMap le32).length = (1 + c.2.length + 1) * 4 := by
    rw [List.length_append, le32_length, flatMap_le32_length]
    simp only [chunkOffsets, List.length_map, cumsum_length, tokItems]
    omega
  rw [h1]
  unfold tokFile createChunk chunkBytes
  rw [List.drop_left' h2, tokData_flatten]

theorem tokFile_length (c : TokChunk) : (tokFile c).length = (1 + (tokInfo c).chunkSize + 1) * 4 + c.2.flatten.flatten.length := by
  have h1 : (tokInfo c).chunkSize = c.2.length := by simp [tokInfo, chunkInfo, tokItems]
  rw [← tokData_flatten]
  unfold tokFile createChunk chunkBytes
  rw [List.length_append, List.length_append, le32_length, flatMap_le32_length, h1]
  simp only [chunkOffsets, List.length_map, cumsum_length, tokItems]
  omega

/-- What holds at every instant. -/
structure TokInv (data : List TokChunk) (s : (String → Option Bytes) × TokState) : Prop where
  file : ∀ c ∈ data, ∀ f, s.1 c.1 = some f → f = tokFile c
  map : ∀ k m, s.2.current k = some m → ∃ c, data[k]? = some c ∧ s.2.maps[m]? = some (some c.2.flatten.flatten)
  inj : ∀ k k' m, s.2.current k = some m → s.2.current k' = some m → k = k'

theorem tokLoadChunk_inv {data : List TokChunk} {fs : String → Option Bytes} {st st' : TokState} {k : Nat} {c : TokChunk}
    (hk : data[k]? = some c) (hi : TokInv data (fs, st)) (h : tokLoadChunk fs (data.map tokInfo) st k c.1 = .ok st') :
    TokInv data (fs, st') ∧ (∃ m, st'.current k = some m) ∧ (∀ (i : Nat) b, st.maps[i]? = some b → st'.maps[i]? = some b) := by
  unfold tokLoadChunk at h
  simp only [List.getElem?_map, hk, Option.map_some] at h
  cases hc : st.current k with
  | some m =>
    rw [hc] at h
    simp only [Except.ok.injEq] at h
    subst h
    exact ⟨⟨hi.file, hi.map, hi.inj⟩, ⟨m, hc⟩, fun i b hb => hb⟩
  | none =>
    rw [hc] at h
    simp only at h
    cases hf : fs c.1 with
    | none => rw [hf] at h; simp at h
    | some f =>
      rw [hf] at h
      simp only at h
      split at h
      · simp at h
      · simp only [Except.ok.injEq] at h
        subst h
        have hfile := hi.file c (List.mem_of_getElem? hk) f hf
        refine ⟨⟨hi.file, ?_, ?_⟩, ⟨st.maps.length, by simp⟩, ?_⟩
        · intro i m hm
          simp only at hm ⊢
          by_cases hik : i = k
          · subst hik
            simp only [if_true, Option.some.injEq] at hm
            subst hm
            exact ⟨c, hk, by rw [List.getElem?_append_right (Nat.le_refl _)]; simp [hfile, tokFile_drop]⟩
          · rw [if_neg hik] at hm
            obtain ⟨d, h1, h2⟩ := hi.map i m hm
            exact ⟨d, h1, by rw [List.getElem?_append_left (List.getElem?_eq_some_iff.1 h2).1]; exact h2⟩
        · intro i i' m hm hm'
          simp only at hm hm'
          have hlt : ∀ i m, st.current i = some m → m < st.maps.length := by
            intro i m h
            obtain ⟨d, _, h2⟩ := hi.map i m h
            exact (List.getElem?_eq_some_iff.1 h2).1
          by_cases h1 : i = k <;> by_cases h2 : i' = k
          · rw [h1, h2]
          · rw [if_pos h1] at hm; rw [if_neg h2] at hm'
            have := hlt _ _ hm'
            simp only [Option.some.injEq] at hm
            omega
          · rw [if_neg h1] at hm; rw [if_pos h2] at hm'
            have := hlt _ _ hm
            simp only [Option.some.injEq] at hm'
            omega
          · rw [if_neg h1] at hm; rw [if_neg h2] at hm'
            exact hi.inj _ _ _ hm hm'
        · intro i b hb
          simp only
          rw [List.getElem?_append_left (List.getElem?_eq_some_iff.1 hb).1]; exact hb

theorem tokUnmap_inv {data : List TokChunk} {fs : String → Option Bytes} {st : TokState} (k : Nat) (hi : TokInv data (fs, st)) :
    TokInv data (fs, tokUnmap st k) ∧ (∀ (k' m : Nat) b, k' ≠ k → st.current k' = some m → st.maps[m]? = b → (tokUnmap st k).maps[m]? = b ∧ (tokUnmap st k).current k' = some m) := by
  unfold tokUnmap
  cases hc : st.current k with
  | none => exact ⟨hi, fun k' m b _ h1 h2 => ⟨h2, h1⟩⟩
  | some m0 =>
    have hne : ∀ k' m, k' ≠ k → st.current k' = some m → m0 ≠ m := by
      intro k' m h1 h2 h3
      subst h3
      exact h1 (hi.inj _ _ _ h2 hc)
    refine ⟨⟨hi.file, ?_, ?_⟩, ?_⟩
    · intro i m hm
      simp only at hm ⊢
      by_cases hik : i = k
      · rw [if_pos hik] at hm; cases hm
      · rw [if_neg hik] at hm
        obtain ⟨d, h1, h2⟩ := hi.map i m hm
        exact ⟨d, h1, by rw [List.getElem?_set_ne (hne i m hik hm)]; exact h2⟩
    · intro i i' m hm hm'
      simp only at hm hm'
      split at hm
      · cases hm
      · split at hm'
        · cases hm'
        · exact hi.inj _ _ _ hm hm'
    · intro k' m b h1 h2 h3
      exact ⟨by simp only; rw [List.getElem?_set_ne (hne k' m h1 h2)]; exact h3, by simp only; rw [if_neg h1]; exact h2⟩

theorem tokWait_maps {fs : String → Option Bytes} {st st' : TokState} {path : String} {n : Nat} (h : tokWait fs st path n = .ok st') :
    st'.maps = st.maps ∧ st'.current = st.current := by
  have key : ∀ s : TokState, s.maps = st.maps ∧ s.current = st.current →
      (if path ∈ s.known then Except.ok s else match fs path with
        | none => .error .fileNotFound
        | some file => if file.length ≥ n then .ok { s with known := path :: s.known } else .error .fileNotFound) = Except.ok (ε := Err) st' →
      st'.maps = st.maps ∧ st'.current = st.current := by
    intro s hs h
    split at h
    · simp only [Except.ok.injEq] at h; subst h; exact hs
    · split at h
      · cases h
      · split at h
        · simp only [Except.ok.injEq] at h; subst h; exact hs
        · cases h
  unfold tokWait at h
  simp only at h
  by_cases hc : path ∈ st.known ∧ fs path = none
  · rw [if_pos hc] at h; refine key _ ?_ h; exact ⟨rfl, rfl⟩
  · rw [if_neg hc] at h; refine key _ ?_ h; exact ⟨rfl, rfl⟩

/-- With the file there, the wait ends well: the file is complete. -/
theorem tokWait_ok {fs : String → Option Bytes} {st : TokState} {path : String} {n : Nat} {f : Bytes} (hf : fs path = some f) (hl : n ≤ f.length) :
    ∃ st', tokWait fs st path n = .ok st' := by
  unfold tokWait
  simp only [hf, reduceCtorEq, and_false, if_false, ge_iff_le, hl, if_true]
  split <;> exact ⟨_, rfl⟩

theorem tokInv_congr {data : List TokChunk} {fs : String → Option Bytes} {st st' : TokState} (h1 : st'.maps = st.maps) (h2 : st'.current = st.current)
    (hi : TokInv data (fs, st)) : TokInv data (fs, st') := by
  refine ⟨hi.file, ?_, ?_⟩
  · intro k m; simp only [h1, h2]; exact hi.map k m
  · intro k k' m; simp only [h2]; exact hi.inj k k' m

theorem tokLoadItem_state {fs : String → Option Bytes} {chunks : List ChunkInfo} {bs sz : Nat} {st st' : TokState} {i k : Nat} {path : String} {b n : Nat} {v : TokView}
    (h : tokLoadItem fs chunks bs sz st i k path b n = .ok (v, st')) :
    ∃ st1, tokWait fs st path n = .ok st1 ∧ tokLoadChunk fs chunks st1 k path = .ok st' ∧ st'.current k = some v.map := by
  unfold tokLoadItem at h
  split at h
  · cases h
  · cases hw : tokWait fs st path n with
    | error e => rw [hw] at h; cases h
    | ok st1 =>
      rw [hw] at h
      simp only at h
      cases hl : tokLoadChunk fs chunks st1 k path with
      | error e => rw [hl] at h; cases h
      | ok st2 =>
        rw [hl] at h
        simp only at h
        cases hc : st2.current k with
        | none => rw [hc] at h; cases h
        | some m =>
          rw [hc] at h
          simp only at h
          split at h
          · cases h
          · split at h
            · split at h
              · simp only [Except.ok.injEq, Prod.mk.injEq] at h
                obtain ⟨h1, h2⟩ := h
                subst h1; subst h2
                exact ⟨st1, rfl, hl, hc⟩
              · cases h
            · cases h

theorem tokStep_inv {data : List TokChunk} {bs sz : Nat} (hd : TokData data sz) {s : (String → Option Bytes) × TokState} (op : TokOp)
    (hi : TokInv data s) : TokInv data (tokStep data bs sz s op) := by
  obtain ⟨fs, st⟩ := s
  cases op with
  | arrive k =>
    simp only [tokStep]
    cases hk : data[k]? with
    | none => exact hi
    | some c =>
      refine ⟨?_, hi.map, hi.inj⟩
      intro d hdm f hf
      simp only at hf
      by_cases he : d.1 = c.1
      · rw [if_pos he] at hf
        rw [hd.name d hdm c (List.mem_of_getElem? hk) he]
        exact (Option.some.inj hf).symm
      · rw [if_neg he] at hf
        exact hi.file d hdm f hf
  | vanish p =>
    refine ⟨?_, hi.map, hi.inj⟩
    intro d hdm f hf
    simp only [tokStep] at hf
    split at hf
    · cases hf
    · exact hi.file d hdm f hf
  | preLoad k =>
    simp only [tokStep]
    cases hk : data[k]? with
    | none => exact hi
    | some c =>
      simp only
      cases hp : tokPreLoad fs (data.map tokInfo) st k c.1 with
      | error e => exact hi
      | ok st' =>
        simp only
        have key : ∀ s0 : TokState, s0.maps = st.maps → s0.current = st.current →
            (match fs c.1 with
              | none => Except.ok s0
              | some file => if file.length > 0 then tokLoadChunk fs (data.map tokInfo) s0 k c.1 else .ok s0) = Except.ok (ε := Err) st' → TokInv data (fs, st') := by
          intro s0 h1 h2 h
          have hi0 := tokInv_congr h1 h2 hi
          split at h
          · simp only [Except.ok.injEq] at h; subst h; exact hi0
          · split at h
            · exact (tokLoadChunk_inv hk hi0 h).1
            · simp only [Except.ok.injEq] at h; subst h; exact hi0
        unfold tokPreLoad at hp
        simp only at hp
        by_cases hkn : c.1 ∈ st.known
        · rw [if_pos hkn] at hp; refine key _ ?_ ?_ hp <;> rfl
        · rw [if_neg hkn] at hp; refine key _ ?_ ?_ hp <;> rfl
  | load k i b =>
    simp only [tokStep]
    cases hk : data[k]? with
    | none => exact hi
    | some c =>
      simp only
      cases hp : tokLoadItem fs (data.map tokInfo) bs sz st i k c.1 b (tokInfo c).chunkBytes with
      | error e => exact hi
      | ok r =>
        obtain ⟨v, st'⟩ := r
        obtain ⟨st1, h1, h2, _⟩ := tokLoadItem_state hp
        obtain ⟨e1, e2⟩ := tokWait_maps h1
        exact (tokLoadChunk_inv hk (tokInv_congr e1 e2 hi) h2).1
  | close k =>
    simp only [tokStep, tokClose]
    have h1 : TokInv data (fs, { st with counter := fun i => if i = k then st.counter i - 1 else st.counter i }) := by
      refine tokInv_congr ?_ ?_ hi <;> rfl
    simp only [if_true]
    by_cases h0 : st.counter k - 1 = 0
    · rw [if_pos h0]; exact (tokUnmap_inv k h1).1
    · rw [if_neg h0]; exact h1
  | delete k =>
    simp only [tokStep]
    cases hk : data[k]? with
    | none => exact hi
    | some c =>
      simp only [tokDelete]
      cases hf : fs c.1 with
      | none => exact hi
      | some f =>
        simp only
        have hfs : ∀ s0 : TokState, TokInv data (fs, s0) → TokInv data ((fun p => if p = c.1 then none else fs p), s0) := by
          intro s0 h0
          refine ⟨?_, h0.map, h0.inj⟩
          intro d hdm f hf
          simp only at hf
          split at hf
          · cases hf
          · exact hi.file d hdm f hf
        cases hc : st.current k with
        | none => exact hfs _ hi
        | some m =>
          refine hfs _ ?_
          refine tokInv_congr (st := tokUnmap st k) ?_ ?_ (tokUnmap_inv k hi).1 <;> rfl

theorem tokRun_inv {data : List TokChunk} {bs sz : Nat} (hd : TokData data sz) (ops : List TokOp) (s : (String → Option Bytes) × TokState)
    (hi : TokInv data s) : TokInv data (tokRun data bs sz s ops) := by
  induction ops generalizing s with
  | nil => exact hi
  | cons op ops ih => exact ih _ (tokStep_inv hd op hi)

theorem tokInit_inv (data : List TokChunk) : TokInv data (fun _ => none, TokState.init) :=
  ⟨fun _ _ _ h => (by cases h), fun _ _ h => (by cases h), fun _ _ _ h => (by cases h)⟩

/-- **C32.** Whatever happened before (calls of both threads in any order, files arriving whole and being removed), sample
`j` of chunk `k` is the `j`-th block of its tokens if the file is there, and `FileNotFoundError` if it is not. -/
theorem c32_block_partial (data : List TokChunk) (bs sz : Nat) (hb : 0 < bs) (hd : TokData data sz) (ops : List TokOp) (k : Nat) (c : TokChunk)
    (hk : data[k]? = some c) (begin j : Nat) (hj : j < c.2.flatten.length / bs) (s : (String → Option Bytes) × TokState)
    (hs : s = tokRun data bs sz (fun _ => none, TokState.init) ops) :
    (s.1 c.1 = none → tokLoadItem s.1 (data.map tokInfo) bs sz s.2 (begin + j) k c.1 begin (tokInfo c).chunkBytes = .error .fileNotFound) ∧
    (s.1 c.1 ≠ none → ∃ v st', tokLoadItem s.1 (data.map tokInfo) bs sz s.2 (begin + j) k c.1 begin (tokInfo c).chunkBytes = .ok (v, st') ∧
      tokDeref st' sz v = some (tokBlock bs c.2.flatten j)) := by
  have hi : TokInv data s := by rw [hs]; exact tokRun_inv hd ops _ (tokInit_inv data)
  obtain ⟨fs, st⟩ := s
  have hbz : bs ≠ 0 := by omega
  have hmem := List.mem_of_getElem? hk
  constructor
  · intro hf
    simp only at hf
    unfold tokLoadItem
    rw [if_neg hbz]
    have : tokWait fs st c.1 (tokInfo c).chunkBytes = .error .fileNotFound := by
      unfold tokWait
      simp only [hf, and_true]
      by_cases h : c.1 ∈ st.known
      · rw [if_pos h, if_neg (by simp)]
      · rw [if_neg h, if_neg h]
    simp only [this]
  · intro hf
    simp only at hf ⊢
    cases hff : fs c.1 with
    | none => exact absurd hff hf
    | some f =>
      have hfile := hi.file c hmem f hff
      have hsz : (tokInfo c).chunkBytes = f.length := by rw [hfile]; rfl
      obtain ⟨st1, hw⟩ := tokWait_ok (st := st) (n := (tokInfo c).chunkBytes) hff (by omega)
      obtain ⟨e1, e2⟩ := tokWait_maps hw
      have hi1 := tokInv_congr e1 e2 hi
      have htoks : ∀ x ∈ c.2.flatten, x.length = sz := by
        intro x hx
        obtain ⟨t, ht, hxt⟩ := List.mem_flatten.1 hx
        exact hd.size c hmem t ht x hxt
      have hlen := flatten_length_const c.2.flatten htoks
      have hjb : (j + 1) * bs ≤ c.2.flatten.length := by
        have := (Nat.le_div_iff_mul_le hb).1 hj
        exact this
      rw [Nat.succ_mul] at hjb
      have hpos : 0 < c.2.flatten.flatten.length := by
        rw [hlen]; exact Nat.mul_pos hd.pos (by omega)
      -- the chunk is mapped
      have hload : ∃ st2, tokLoadChunk fs (data.map tokInfo) st1 k c.1 = .ok st2 := by
        unfold tokLoadChunk
        simp only [List.getElem?_map, hk, Option.map_some, hff]
        split
        · exact ⟨_, rfl⟩
        · rw [if_neg (by rw [hfile, tokFile_length]; omega)]
          exact ⟨_, rfl⟩
      obtain ⟨st2, hl⟩ := hload
      obtain ⟨hi2, ⟨m, hm⟩, _⟩ := tokLoadChunk_inv hk hi1 hl
      obtain ⟨d, hd1, hd2⟩ := hi2.map k m hm
      rw [hk] at hd1
      cases hd1
      simp only at hm hd2
      have hoff : sz * j * bs = sz * (j * bs) := Nat.mul_assoc _ _ _
      have hfit : sz * j * bs + sz * bs ≤ c.2.flatten.flatten.length := by
        rw [hlen, hoff, ← Nat.mul_add]; exact Nat.mul_le_mul_left _ hjb
      refine ⟨⟨m, sz * j * bs, bs⟩, st2, ?_, ?_⟩
      · unfold tokLoadItem
        rw [if_neg hbz]
        simp only [hw, hl, hm, hd2]
        rw [if_neg (by omega), Nat.add_sub_cancel_left, if_pos hfit]
      · unfold tokDeref
        simp only [hd2]
        rw [hoff, flatten_drop_const _ htoks, groups_flatten _ (fun x hx => htoks x (List.mem_of_mem_drop hx)) bs (by rw [List.length_drop]; omega)]
        rfl

/-- **C32.** The blocks of a chunk are consecutive and disjoint pieces that leave out fewer than `bs` tokens at the end. -/
theorem c32_cover (bs : Nat) (hb : 0 < bs) (toks : List Bytes) :
    ((List.range (toks.length / bs)).flatMap (tokBlock bs toks)) ++ toks.drop (toks.length / bs * bs) = toks ∧
    (toks.drop (toks.length / bs * bs)).length < bs ∧ (∀ j, j < toks.length / bs → (tokBlock bs toks j).length = bs) := by
  have key : ∀ n, n ≤ toks.length / bs → (List.range n).flatMap (tokBlock bs toks) = toks.take (n * bs) := by
    intro n
    induction n with
    | zero => intro _; simp
    | succ n ih =>
      intro hn
      rw [List.range_succ, List.flatMap_append, ih (by omega), Nat.succ_mul, List.take_add]
      simp [tokBlock]
  refine ⟨by rw [key _ (Nat.le_refl _)]; exact List.take_append_drop _ _, ?_, ?_⟩
  · rw [List.length_drop]
    have h1 := Nat.div_add_mod toks.length bs
    have := Nat.mod_lt toks.length hb
    rw [Nat.mul_comm] at h1
    omega
  · intro j hj
    have := (Nat.le_div_iff_mul_le hb).1 hj
    rw [Nat.succ_mul] at this
    simp only [tokBlock, List.length_take, List.length_drop]
    omega

/-- All blocks of a dataset, chunk by chunk. -/
def allBlocks (bs : Nat) (data : List TokChunk) : List (List Bytes) :=
  data.flatMap fun c => (List.range (c.2.flatten.length / bs)).map (tokBlock bs c.2.flatten)

/-- The first item of each chunk has a token. -/
def FirstNonempty (c : TokChunk) : Prop := ∃ t ts, c.2 = t :: ts ∧ t ≠ []

theorem tokInfo_dim (c : TokChunk) (h : FirstNonempty c) : (tokInfo c).dim = some c.2.flatten.length := by
  obtain ⟨t, ts, h1, h2⟩ := h
  have hl : t.length ≠ 0 := fun e => h2 (List.length_eq_zero_iff.1 e)
  simp only [tokInfo, chunkInfo, tokItems, h1, List.map_cons, List.head?_cons, Option.bind_some, if_neg hl]
  simp [List.length_flatten, Function.comp_def]

theorem tok_search (bs : Nat) (hb : 0 < bs) (ds : List TokChunk) (hd : ∀ c ∈ ds, FirstNonempty c) (idx k0 b : Nat) :
    ∃ ivs, tokIntervals bs none idx b (ds.map tokInfo) = .ok ivs ∧
      ∀ i, i < (allBlocks bs ds).length → ∃ k c j bg, ds[k]? = some c ∧ j < c.2.flatten.length / bs ∧
        ivs[k]? = some ⟨bg, bg, bg + c.2.flatten.length / bs, bg + c.2.flatten.length / bs⟩ ∧
        searchChunk ((b + i : Nat) : Int) k0 ((zeroBased b ivs).zip ivs) = .ok (bg + j, k0 + k) ∧
        (allBlocks bs ds)[i]? = some (tokBlock bs c.2.flatten j) := by
  induction ds generalizing idx k0 b with
  | nil => exact ⟨[], by simp [tokIntervals]; omega, fun i hi => by simp [allBlocks] at hi⟩
  | cons c ds ih =>
    obtain ⟨ivs, h1, h2⟩ := ih (fun c hc => hd c (List.mem_cons_of_mem _ hc)) (idx + 1) (k0 + 1) (b + c.2.flatten.length / bs)
    have hdim := tokInfo_dim c (hd c (by simp))
    refine ⟨⟨b, b, b + c.2.flatten.length / bs, b + c.2.flatten.length / bs⟩ :: ivs, ?_, ?_⟩
    · rw [List.map_cons, tokIntervals, if_neg (by omega)]
      simp only [hdim, h1]
    · intro i hi
      have e : allBlocks bs (c :: ds) = (List.range (c.2.flatten.length / bs)).map (tokBlock bs c.2.flatten) ++ allBlocks bs ds := by
        simp [allBlocks]
      generalize hn : c.2.flatten.length / bs = n at *
      have hsz : Interval.size ⟨b, b, b + n, b + n⟩ = n := by simp [Interval.size]
      by_cases hin : i < n
      · refine ⟨0, c, i, b, rfl, by omega, by rw [hn]; rfl, ?_, ?_⟩
        · simp only [zeroBased, hsz, List.zip_cons_cons, searchChunk]
          rw [if_pos (by omega)]
          congr 2
          omega
        · rw [e, List.getElem?_append_left (by simpa using hin)]
          simp [hin]
      · have hi' : i - n < (allBlocks bs ds).length := by
          rw [e, List.length_append, List.length_map, List.length_range] at hi; omega
        obtain ⟨k, d, j, bg, g1, g2, g3, g4, g5⟩ := h2 (i - n) hi'
        refine ⟨k + 1, d, j, bg, by simpa using g1, g2, by simpa using g3, ?_, ?_⟩
        · simp only [zeroBased, hsz, List.zip_cons_cons, searchChunk]
          rw [if_neg (by omega)]
          rw [show b + n + (i - n) = b + i by omega] at g4
          rw [g4]
          congr 2
          omega
        · rw [e, List.getElem?_append_right (by simp; omega)]
          simpa using g5

/-- **C32.** Over a whole dataset: index `i` is found in the chunk that holds block `i` of all blocks, and what is read
there, once its file is there, is that block. -/
theorem c32_dataset_partial (data : List TokChunk) (bs sz : Nat) (hb : 0 < bs) (hd : TokData data sz) (hf : ∀ c ∈ data, FirstNonempty c)
    (ops : List TokOp) (s : (String → Option Bytes) × TokState) (hs : s = tokRun data bs sz (fun _ => none, TokState.init) ops) :
    ∃ ivs, tokIntervals bs none 0 0 (data.map tokInfo) = .ok ivs ∧ ∀ i, i < (allBlocks bs data).length →
      ∃ real k path begin filesize, chunkFromIndex ivs i = .ok (real, k) ∧
        configGet (fun x => x) (data.map tokInfo) ivs k = .ok (path, begin, filesize) ∧
        (s.1 path ≠ none → ∃ v st', tokLoadItem s.1 (data.map tokInfo) bs sz s.2 real k path begin filesize = .ok (v, st') ∧
          tokDeref st' sz v = (allBlocks bs data)[i]?) := by
  obtain ⟨ivs, h1, h2⟩ := tok_search bs hb data hf 0 0 0
  refine ⟨ivs, h1, fun i hi => ?_⟩
  obtain ⟨k, c, j, bg, g1, g2, g3, g4, g5⟩ := h2 i hi
  refine ⟨bg + j, k, c.1, bg, (tokInfo c).chunkBytes, ?_, ?_, ?_⟩
  · simpa [chunkFromIndex] using g4
  · simp only [configGet, List.getElem?_map, g1, Option.map_some, g3]
    rfl
  · intro hp
    obtain ⟨v, st', w1, w2⟩ := (c32_block_partial data bs sz hb hd ops k c g1 bg j g2 s hs).2 hp
    exact ⟨v, st', w1, by rw [w2, g5]⟩

/-- Whether an event may unmap chunk `k`. -/
def TokOp.unmaps (k : Nat) : TokOp → Bool
  | .close k' => k' == k
  | .delete k' => k' == k
  | _ => false

/-- **C32.** A block stays what it is until its chunk is closed or deleted: the memory map is kept. -/
theorem c32_view_stays (data : List TokChunk) (bs sz : Nat) (hd : TokData data sz) (s : (String → Option Bytes) × TokState)
    (hi : TokInv data s) (k m : Nat) (hm : s.2.current k = some m) (ops : List TokOp) (hops : ∀ op ∈ ops, op.unmaps k = false) :
    (tokRun data bs sz s ops).2.current k = some m ∧ (tokRun data bs sz s ops).2.maps[m]? = s.2.maps[m]? := by
  induction ops generalizing s with
  | nil => exact ⟨hm, rfl⟩
  | cons op ops ih =>
    have hstep : (tokStep data bs sz s op).2.current k = some m ∧ (tokStep data bs sz s op).2.maps[m]? = s.2.maps[m]? := by
      obtain ⟨fs, st⟩ := s
      obtain ⟨c0, _, hmap⟩ := hi.map k m hm
      simp only at hm hmap
      have hop := hops op (by simp)
      -- loading a chunk keeps the maps
      have hload : ∀ (st0 st' : TokState) (k' : Nat) (c : TokChunk), st0.maps = st.maps → st0.current = st.current → data[k']? = some c →
          tokLoadChunk fs (data.map tokInfo) st0 k' c.1 = .ok st' → st'.current k = some m ∧ st'.maps[m]? = st.maps[m]? := by
        intro st0 st' k' c e1 e2 hk h
        have hi0 : TokInv data (fs, st0) := tokInv_congr e1 e2 hi
        refine ⟨?_, by rw [hmap]; exact (tokLoadChunk_inv hk hi0 h).2.2 m _ (by rw [e1]; exact hmap)⟩
        unfold tokLoadChunk at h
        simp only [List.getElem?_map, hk, Option.map_some] at h
        cases hc : st0.current k' with
        | some m' =>
          rw [hc] at h
          simp only [Except.ok.injEq] at h
          subst h
          simp only [e2]; exact hm
        | none =>
          rw [hc] at h
          simp only at h
          split at h
          · cases h
          · split at h
            · cases h
            · simp only [Except.ok.injEq] at h
              subst h
              have hne : k ≠ k' := by
                intro e
                rw [e2, ← e, hm] at hc
                cases hc
              simp only [if_neg hne, e2]
              exact hm
      cases op with
      | arrive k' =>
        simp only [tokStep]
        split <;> exact ⟨hm, rfl⟩
      | vanish p => exact ⟨hm, rfl⟩
      | preLoad k' =>
        simp only [tokStep]
        cases hk : data[k']? with
        | none => exact ⟨hm, rfl⟩
        | some c =>
          simp only
          cases hp : tokPreLoad fs (data.map tokInfo) st k' c.1 with
          | error e => exact ⟨hm, rfl⟩
          | ok st' =>
            simp only
            have key : ∀ s0 : TokState, s0.maps = st.maps → s0.current = st.current →
                (match fs c.1 with
                  | none => Except.ok s0
                  | some file => if file.length > 0 then tokLoadChunk fs (data.map tokInfo) s0 k' c.1 else .ok s0) = Except.ok (ε := Err) st' →
                st'.current k = some m ∧ st'.maps[m]? = st.maps[m]? := by
              intro s0 h1 h2 h
              split at h
              · simp only [Except.ok.injEq] at h; subst h; exact ⟨by rw [h2]; exact hm, by rw [h1]⟩
              · split at h
                · exact hload s0 st' k' c h1 h2 hk h
                · simp only [Except.ok.injEq] at h; subst h; exact ⟨by rw [h2]; exact hm, by rw [h1]⟩
            unfold tokPreLoad at hp
            simp only at hp
            by_cases hkn : c.1 ∈ st.known
            · rw [if_pos hkn] at hp; refine key _ ?_ ?_ hp <;> rfl
            · rw [if_neg hkn] at hp; refine key _ ?_ ?_ hp <;> rfl
      | load k' i b =>
        simp only [tokStep]
        cases hk : data[k']? with
        | none => exact ⟨hm, rfl⟩
        | some c =>
          simp only
          cases hp : tokLoadItem fs (data.map tokInfo) bs sz st i k' c.1 b (tokInfo c).chunkBytes with
          | error e => exact ⟨hm, rfl⟩
          | ok r =>
            obtain ⟨v, st'⟩ := r
            obtain ⟨st1, h1, h2, _⟩ := tokLoadItem_state hp
            obtain ⟨e1, e2⟩ := tokWait_maps h1
            exact hload st1 st' k' c e1 e2 hk h2
      | close k' =>
        have hne : k ≠ k' := by
          intro e; simp [TokOp.unmaps, e] at hop
        simp only [tokStep, tokClose, if_true]
        have h1 : TokInv data (fs, { st with counter := fun i => if i = k' then st.counter i - 1 else st.counter i }) := by
          refine tokInv_congr ?_ ?_ hi <;> rfl
        by_cases h0 : st.counter k' - 1 = 0
        · rw [if_pos h0]
          exact ((tokUnmap_inv k' h1).2 k m _ hne hm rfl).symm
        · rw [if_neg h0]; exact ⟨hm, rfl⟩
      | delete k' =>
        have hne : k ≠ k' := by
          intro e; simp [TokOp.unmaps, e] at hop
        simp only [tokStep]
        cases hk : data[k']? with
        | none => exact ⟨hm, rfl⟩
        | some c =>
          simp only [tokDelete]
          cases hf : fs c.1 with
          | none => exact ⟨hm, rfl⟩
          | some f =>
            simp only
            cases hc : st.current k' with
            | none => exact ⟨hm, rfl⟩
            | some m' => exact ((tokUnmap_inv k' hi).2 k m _ hne hm rfl).symm
    have := ih _ (tokStep_inv hd op hi) hstep.1 fun op' h => hops op' (List.mem_cons_of_mem _ h)
    exact ⟨this.1, this.2.trans hstep.2⟩

/-- Two chunks of two-byte tokens. -/
def demoTok : List TokChunk := [("a", [[[1, 0], [2, 0]], [[3, 0]]]), ("b", [[[4, 0]]])]

/-- The data of `c32_block_partial`, `c32_dataset_partial` and `c32_view_stays`, and a run in which chunk `a` is read, closed and read again. -/
example : TokData demoTok 2 ∧ (∀ c ∈ demoTok, FirstNonempty c) ∧
    (tokRun demoTok 2 2 (fun _ => none, TokState.init) [.arrive 0, .preLoad 0, .load 0 0 0]).1 "a" ≠ none ∧
    (tokRun demoTok 2 2 (fun _ => none, TokState.init) [.arrive 0, .preLoad 0, .load 0 0 0]).2.current 0 = some 0 ∧
    allBlocks 2 demoTok = [[[1, 0], [2, 0]]] ∧ allBlocks 1 demoTok = [[[1, 0]], [[2, 0]], [[3, 0]], [[4, 0]]] := by
  refine ⟨⟨by decide, by decide, by decide⟩, ?_, by decide +kernel, by decide +kernel, by decide, by decide⟩
  intro c hc
  simp only [demoTok, List.mem_cons, List.not_mem_nil, or_false] at hc
  rcases hc with rfl | rfl
  · exact ⟨_, _, rfl, by simp⟩
  · exact ⟨_, _, rfl, by simp⟩

/-- **C32, a hazard.** A block is a view of the memory map: once the chunk is deleted, a block handed out before points to
memory that is not mapped. -/
theorem c32_view_after_delete : ∃ v st', tokLoadItem (fun p => if p = "a" then some (tokFile ("a", [[[1, 0], [2, 0]], [[3, 0]]])) else none)
      (demoTok.map tokInfo) 2 2 TokState.init 0 0 "a" 0 22 = .ok (v, st') ∧
    tokDeref st' 2 v = some [[1, 0], [2, 0]] ∧
    tokDeref (tokDelete (fun p => if p = "a" then some [] else none) st' 0 "a").1 2 v = none :=
  ⟨⟨0, 0, 2⟩, _, rfl, rfl, rfl⟩

/-- **C32 fails for encrypted datasets.** `TokensLoader` does not decrypt: what it returns are blocks of the encrypted file. -/
theorem c32_encrypted_misread : ∃ v st', tokLoadItem (fun p => if p = "a" then some (createChunk (some (toyCipher .chunk)) 0 [[1, 0, 2, 0]]) else none)
      [chunkInfo (some (toyCipher .chunk)) 0 "a" [⟨[1, 0, 2, 0], some 2⟩]] 2 2 TokState.init 0 0 "a" 0 17 = .ok (v, st') ∧
    tokDeref st' 2 v ≠ some [[1, 0], [2, 0]] :=
  ⟨⟨0, 0, 2⟩, _, rfl, by decide⟩

/-- **C32 fails when the first item of a chunk is empty.** The chunk is recorded without `dim` and the intervals cannot be
computed. -/
theorem c32_empty_first_item : (tokInfo ("a", [[], [[1, 0]]])).dim = none ∧
    tokIntervals 1 none 0 0 ([("a", [[], [[1, 0]]]), ("b", [[[2, 0]]])].map tokInfo) = .error .typeError := by decide +kernel

/-- **C32 fails for files that appear before they are complete.** Preloading maps the part that is there, and reading then
raises `ValueError` even after the file is complete. -/
theorem c32_partial_file : ∃ st, tokPreLoad (fun p => if p = "a" then some ((tokFile ("a", [[[1, 0], [2, 0]], [[3, 0]]])).take 18) else none)
      (demoTok.map tokInfo) TokState.init 0 "a" = .ok st ∧
    tokLoadItem (fun p => if p = "a" then some (tokFile ("a", [[[1, 0], [2, 0]], [[3, 0]]])) else none)
      (demoTok.map tokInfo) 2 2 st 0 0 "a" 0 22 = .error .valueError :=
  ⟨_, rfl, rfl⟩

end LitData.Props
