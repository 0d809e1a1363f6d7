import Verif.Model.TokensThreads
import Verif.Props.Tokens

/-! Property C77: blocks of tokens are read correctly while the thread loads chunks ahead and deletes them. -/

namespace LitData.Props
open LitData Spec

/-- The pass over stored chunks of tokens. -/
def tokPass (data : List TokChunk) (bs sz : Nat) (items : List (Nat × Nat)) : TokPass :=
  ⟨fun k => data[k]?.map tokFile, data.map tokInfo, bs, sz, items⟩

/-- Nothing of chunk `g` is asked for from position `n` on. -/
def NotAhead (items : List (Nat × Nat)) (n g : Nat) : Prop := ∀ i k j, n ≤ i → items[i]? = some (k, j) → k ≠ g

/-- Chunk after chunk: once another chunk is asked for, the one before does not come again. -/
def ChunkByChunk (items : List (Nat × Nat)) : Prop :=
  ∀ i g j k l, items[i]? = some (g, j) → items[i + 1]? = some (k, l) → k ≠ g → NotAhead items (i + 1) g

/-- The remote folder has every chunk, whole and with at least one token, and its entry in the index is right. -/
def TokPassOk (cfg : TokPass) : Prop :=
  ∀ k f, cfg.files k = some f → ∃ c, cfg.chunks[k]? = some c ∧ c.chunkBytes = f.length ∧ (1 + c.chunkSize + 1) * 4 < f.length

/-- The chunks still to be given up after the current one. -/
def pendingGives : TokRpc → List Nat
  | .give gs => gs
  | .close _ _ gs => gs
  | _ => []

/-- The thread has the whole file of the chunk, and is about to load it. -/
def tokLoading : TokTpc → Option Nat
  | .fetched k | .known k | .there k | .count k | .test k | .map k => some k
  | _ => none

/-- The thread deletes the chunk. -/
def tokDeleting : TokTpc → Option Nat
  | .delThere k | .delTestBuf k | .delBuf k | .delTestMap k | .delClose k | .delMap k | .delCount k | .delFile k => some k
  | _ => none

/-- The reader is about to map the file. -/
def tokReady : TokRpc → Bool
  | .count | .test | .map => true
  | _ => false

structure TTInv (cfg : TokPass) (s : TokThreads) : Prop where
  le : s.done ≤ cfg.items.length
  given : ∀ g ∈ s.given, NotAhead cfg.items s.done g
  giving : ∀ g ∈ pendingGives s.rpc, NotAhead cfg.items s.done g
  closing : ∀ g l gs, s.rpc = .close g l gs → g ∈ s.given
  last0 : s.last = none → s.done = 0 ∧ s.rpc = .idle
  last1 : ∀ l, s.last = some l → ∃ j, cfg.items[s.done - 1]? = some (l, j)
  mapped : ∀ (m k : Nat) b, s.maps[m]? = some (k, some b) → ∃ f c, cfg.files k = some f ∧ cfg.chunks[k]? = some c ∧ b = f.drop ((1 + c.chunkSize + 1) * 4)
  unmapped : ∀ m k : Nat, s.maps[m]? = some (k, none) → k ∈ s.given
  mm : ∀ k m, s.mm k = some m → ∃ c, s.maps[m]? = some (k, c)
  buf : ∀ k m, s.buf k = some m → ∃ c, s.maps[m]? = some (k, c)
  tmap : ∀ k m, s.tpc = .setMap k m ∨ s.tpc = .setBuf k m → ∃ c, s.maps[m]? = some (k, c)
  rmap : ∀ m k j, s.rpc = .setMap m ∨ s.rpc = .setBuf m ∨ s.rpc = .view m → cfg.items[s.done]? = some (k, j) → ∃ c, s.maps[m]? = some (k, c)
  file : ∀ k f, s.file k = some f → cfg.files k = some f ∨ (s.tpc = .fetch k ∧ ∃ g, cfg.files k = some g ∧ f.length < g.length)
  known : ∀ k, k ∉ s.given → s.known k = true → s.file k ≠ none ∧ s.file k = cfg.files k
  loading : ∀ k, tokLoading s.tpc = some k → s.file k ≠ none ∧ s.file k = cfg.files k
  deleting : ∀ k, tokDeleting s.tpc = some k → k ∈ s.given
  ready : ∀ k j, tokReady s.rpc = true → cfg.items[s.done]? = some (k, j) → s.file k ≠ none ∧ s.file k = cfg.files k
  bothSet : ∀ k, k ∉ s.given → s.mm k ≠ none → s.buf k ≠ none ∨ (∃ m, s.tpc = .setBuf k m) ∨ (∃ m j, s.rpc = .setBuf m ∧ cfg.items[s.done]? = some (k, j))
  got : ∀ k j, (s.rpc = .get ∨ ∃ m, s.rpc = .setBuf m) → cfg.items[s.done]? = some (k, j) → s.mm k ≠ none
  fetching : ∀ k, s.tpc = .fetch k → ¬(s.file k ≠ none ∧ s.file k = cfg.files k)

theorem tokMap_whole {cfg : TokPass} (hok : TokPassOk cfg) {file : Nat → Option Bytes} {k : Nat} (h0 : file k ≠ none) (h : file k = cfg.files k) :
    ∃ f c, cfg.files k = some f ∧ cfg.chunks[k]? = some c ∧ tokMap cfg file k = .ok (f.drop ((1 + c.chunkSize + 1) * 4)) := by
  cases hf : file k with
  | none => exact absurd hf h0
  | some f =>
    rw [hf] at h
    obtain ⟨c, hc, _, hl⟩ := hok k f h.symm
    refine ⟨f, c, h.symm, hc, ?_⟩
    simp only [tokMap, hc, hf]
    rw [if_neg (by omega)]

theorem tt_init (cfg : TokPass) : TTInv cfg TokThreads.init := by
  constructor <;> simp [TokThreads.init, pendingGives, tokLoading, tokDeleting, tokReady]

theorem get_append_one {l : List (Nat × Option Bytes)} {x : Nat × Option Bytes} {m : Nat} : (l ++ [x])[m]? = if m = l.length then some x else l[m]? := by
  by_cases h : m < l.length
  · rw [List.getElem?_append_left h, if_neg (by omega)]
  · by_cases h2 : m = l.length
    · subst h2; simp
    · rw [if_neg h2, List.getElem?_eq_none (by simp; omega), List.getElem?_eq_none (by omega)]

theorem tt_append {cfg : TokPass} {s : TokThreads} {k : Nat} {b f : Bytes} {c : ChunkInfo} (hi : TTInv cfg s) (hf : cfg.files k = some f) (hc : cfg.chunks[k]? = some c)
    (hb : b = f.drop ((1 + c.chunkSize + 1) * 4)) : TTInv cfg { s with maps := s.maps ++ [(k, some b)] } := by
  have hk : ∀ m k' : Nat, (∃ c, s.maps[m]? = some (k', c)) → ∃ c, (s.maps ++ [(k, some b)])[m]? = some (k', c) := by
    intro m k' ⟨c, h⟩
    rw [get_append_one, if_neg (by intro e; subst e; simp at h)]
    exact ⟨c, h⟩
  obtain ⟨i1, i2, i3, i4, i5, i6, i7, i8, i9, i10, i11, i12, i13, i14, i15, i16, i17, i18, i19, i20⟩ := hi
  refine ⟨i1, i2, i3, i4, i5, i6, ?_, ?_, fun k m h => hk _ _ (i9 k m h), fun k m h => hk _ _ (i10 k m h), fun k m h => hk _ _ (i11 k m h),
    fun m k j h h' => hk _ _ (i12 m k j h h'), i13, i14, i15, i16, i17, i18, i19, i20⟩
  · intro m k' b' h
    rw [get_append_one] at h
    split at h
    · cases h; exact ⟨f, c, hf, hc, hb⟩
    · exact i7 m k' b' h
  · intro m k' h
    rw [get_append_one] at h
    split at h
    · cases h
    · exact i8 m k' h

theorem tt_unmap {cfg : TokPass} {s : TokThreads} {k m : Nat} (hi : TTInv cfg s) (hm : s.mm k = some m) (hk : k ∈ s.given) :
    TTInv cfg { s with maps := s.maps.set m (k, none) } := by
  obtain ⟨i1, i2, i3, i4, i5, i6, i7, i8, i9, i10, i11, i12, i13, i14, i15, i16, i17, i18, i19, i20⟩ := hi
  obtain ⟨c0, h0⟩ := i9 k m hm
  have hlt : m < s.maps.length := (List.getElem?_eq_some_iff.1 h0).1
  have hk' : ∀ m' k' : Nat, (∃ c, s.maps[m']? = some (k', c)) → ∃ c, (s.maps.set m (k, none))[m']? = some (k', c) := by
    intro m' k' ⟨c, h⟩
    rw [List.getElem?_set]
    split
    · rename_i e; subst e; rw [h0] at h; cases h; simp
    · exact ⟨c, h⟩
  refine ⟨i1, i2, i3, i4, i5, i6, ?_, ?_, fun k m h => hk' _ _ (i9 k m h), fun k m h => hk' _ _ (i10 k m h), fun k m h => hk' _ _ (i11 k m h),
    fun m k j h h' => hk' _ _ (i12 m k j h h'), i13, i14, i15, i16, i17, i18, i19, i20⟩
  · intro m' k' b' h
    rw [List.getElem?_set] at h
    split at h
    · cases h
    · exact i7 m' k' b' h
  · intro m' k' h
    rw [List.getElem?_set] at h
    split at h
    · cases h; exact hk
    · exact i8 m' k' h

theorem tt_current {cfg : TokPass} {s : TokThreads} (hi : TTInv cfg s) {k j : Nat} (h : cfg.items[s.done]? = some (k, j)) : k ∉ s.given :=
  fun hk => hi.given k hk s.done k j (Nat.le_refl _) h rfl

set_option maxHeartbeats 8000000 in
theorem tt_thread {cfg : TokPass} (hok : TokPassOk cfg) {s s' : TokThreads} (hi : TTInv cfg s) (h : tokThreadLine cfg s = some s') : TTInv cfg s' := by
  have hcur := @tt_current cfg s hi
  unfold tokThreadLine at h
  split at h
  case h_5 k hp =>
    obtain ⟨h0, h1⟩ := hi.loading k (by simp [hp, tokLoading])
    obtain ⟨f, c, hf, hc, hm⟩ := tokMap_whole hok h0 h1
    rw [hm] at h
    cases h
    obtain ⟨i1, i2, i3, i4, i5, i6, i7, i8, i9, i10, i11, i12, i13, i14, i15, i16, i17, i18, i19, i20⟩ := tt_append hi hf hc rfl
    refine ⟨i1, i2, i3, i4, i5, i6, i7, i8, i9, i10, ?_, i12, ?_, i14, ?_, ?_, i17, ?_, i19, ?_⟩
    · intro k' m' h
      rcases h with h | h
      · cases h; exact ⟨some (f.drop ((1 + c.chunkSize + 1) * 4)), by simp⟩
      · cases h
    all_goals first | assumption | grind [tokLoading, tokDeleting]
  case h_12 k hp =>
    split at h
    · cases h
      obtain ⟨i1, i2, i3, i4, i5, i6, i7, i8, i9, i10, i11, i12, i13, i14, i15, i16, i17, i18, i19, i20⟩ := hi
      constructor <;> first | assumption | grind [tokLoading, tokDeleting]
    · rename_i m hm
      cases h
      obtain ⟨i1, i2, i3, i4, i5, i6, i7, i8, i9, i10, i11, i12, i13, i14, i15, i16, i17, i18, i19, i20⟩ := tt_unmap hi hm (hi.deleting k (by simp [hp, tokDeleting]))
      refine ⟨i1, i2, i3, i4, i5, i6, i7, i8, i9, i10, ?_, i12, ?_, i14, ?_, ?_, i17, ?_, i19, ?_⟩
      all_goals first | assumption | grind [tokLoading, tokDeleting]
  all_goals obtain ⟨i1, i2, i3, i4, i5, i6, i7, i8, i9, i10, i11, i12, i13, i14, i15, i16, i17, i18, i19, i20⟩ := hi
  case h_13 k hp =>
    have hkd := i16 k (by simp [hp, tokDeleting])
    split at h
    · cases h
      constructor <;> first | assumption | grind [tokLoading, tokDeleting]
    · cases h
      constructor
      case got =>
        intro k' j h1 h2
        have := i19 k' j h1 h2
        have hne : k' ≠ k := fun e => hcur h2 (e ▸ hkd)
        simpa [setKey, hne] using this
      case bothSet =>
        intro k' h1 h2
        by_cases e : k' = k
        · exact absurd (e ▸ hkd) h1
        · simp only [setKey, if_neg e] at h2
          rcases i18 k' h1 h2 with h | ⟨m, h⟩ | h
          · exact .inl h
          · rw [hp] at h; cases h
          · exact .inr (.inr h)
      all_goals first | assumption | grind [setKey, tokLoading, tokDeleting]
  all_goals (try split at h)
  all_goals (first | cases h | skip)
  all_goals constructor <;> first | assumption | grind [setKey, pendingGives, tokLoading, tokDeleting, tokReady]


end LitData.Props
