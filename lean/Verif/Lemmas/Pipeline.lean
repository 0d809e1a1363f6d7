import Verif.Model.Pipeline
import Verif.Lemmas.Merge

/-! What a worker leaves on disk, chunk by chunk. -/

namespace LitData

/-- One chunk: its entry in the index, the file, and the plain samples it holds. -/
structure Written where
  info : ChunkInfo
  file : Bytes
  plain : List Bytes

/-- The file holds the plain samples, and the entry describes it. -/
def Written.Good (enc : Option Encryption) (w : Written) : Prop :=
  ∃ nonce : Nat → Nat, w.file = writeItems enc nonce w.plain ∧ w.info.chunkSize = w.plain.length ∧
    w.info.chunkBytes = w.file.length ∧
    8 + 4 * w.plain.length + ((w.plain.mapIdx fun i x => encryptItem enc (nonce (i + 1)) x).map List.length).sum < 2 ^ 32

theorem worker_written (comp : Option Compressor) (enc : Option Encryption) (ns nc : Nat → Nat) (rank : Nat) (cs : List (List WItem)) (j o : Nat)
    (items : List (Bytes × Option Nat))
    (h : cs.flatten = items.mapIdx fun i p => (⟨encryptItem enc (ns (o + i)) p.1, p.2⟩ : WItem))
    (hsz : ∀ c ∈ cs, 8 + 4 * c.length + (c.map fun x => x.data.length).sum < 2 ^ 32) :
    ∃ T : List Written, T.map (fun t => (t.info, Compressor.pack comp t.file)) = workerChunks comp enc nc rank j cs ∧
      (T.map (·.plain)).flatten = items.map (·.1) ∧ (∀ t ∈ T, t.Good enc) ∧
      T.map (·.info.filename) = (List.range' j cs.length).map (chunkFilename (comp.map (·.name)) rank) := by
  induction cs generalizing j o items with
  | nil =>
    have : items = [] := by
      have := congrArg List.length h
      simpa using this.symm
    subst this
    exact ⟨[], rfl, rfl, by simp, rfl⟩
  | cons c cs ih =>
    rw [List.flatten_cons] at h
    have hlen := congrArg List.length h
    simp only [List.length_append, List.length_mapIdx] at hlen
    have hs : items = items.take c.length ++ items.drop c.length := (List.take_append_drop _ _).symm
    rw [hs, List.mapIdx_append] at h
    have hl1 : c.length = ((items.take c.length).mapIdx fun i p => (⟨encryptItem enc (ns (o + i)) p.1, p.2⟩ : WItem)).length := by
      rw [List.length_mapIdx, List.length_take]; omega
    obtain ⟨h1, h2⟩ := List.append_inj h hl1
    have hl2 : (items.take c.length).length = c.length := by rw [List.length_take]; omega
    rw [hl2] at h2
    obtain ⟨T, e1, e2, e3, e4⟩ := ih (j + 1) (o + c.length) (items.drop c.length) (by
      rw [h2]
      congr 1
      funext i p
      rw [show o + (i + c.length) = o + c.length + i by omega]) (fun c hc => hsz c (by simp [hc]))
    have hdata : c.map (·.data) = ((items.take c.length).map (·.1)).mapIdx fun i x => encryptItem enc (ns (o + i)) x := by
      conv => lhs; rw [h1]
      apply List.ext_getElem
      · simp
      · intro i _ _
        simp
    refine ⟨⟨chunkInfo enc (nc j) (chunkFilename (comp.map (·.name)) rank j) c, createChunk enc (nc j) (c.map (·.data)),
      (items.take c.length).map (·.1)⟩ :: T, ?_, ?_, ?_, ?_⟩
    · simp only [List.map_cons, workerChunks, e1]
    · simp only [List.map_cons, List.flatten_cons, e2]
      rw [← List.map_append, ← hs]
    · intro t ht
      rcases List.mem_cons.1 ht with rfl | ht
      · refine ⟨fun n => match n with
          | 0 => nc j
          | n + 1 => ns (o + n), ?_, ?_, ?_, ?_⟩
        · simp only [writeItems, hdata]
        · simp only [chunkInfo, List.length_map, hl2]
        · simp only [chunkInfo]
        · have := hsz c (by simp)
          simp only
          rw [← hdata, List.map_map]
          simp only [List.length_map, hl2]
          exact this
      · exact e3 t ht
    · simp only [List.map_cons, List.length_cons, List.range'_succ, e4, chunkInfo]

/-- Choosing for each member of a list. -/
theorem choose_list {α β : Type} (P : Nat → α → β → Prop) (l : List α) (k : Nat)
    (h : ∀ (r : Nat) (x : α), l[r]? = some x → ∃ y, P (k + r) x y) :
    ∃ ys : List β, ys.length = l.length ∧ ∀ (r : Nat) (x : α) (y : β), l[r]? = some x → ys[r]? = some y → P (k + r) x y := by
  induction l generalizing k with
  | nil => exact ⟨[], rfl, by simp⟩
  | cons a l ih =>
    obtain ⟨y, hy⟩ := h 0 a rfl
    obtain ⟨ys, h1, h2⟩ := ih (k + 1) (fun r x hx => by
      rw [show k + 1 + r = k + (r + 1) by omega]; exact h (r + 1) x (by simpa using hx))
    refine ⟨y :: ys, by simp [h1], ?_⟩
    intro r x y' hx hy'
    cases r with
    | zero =>
      simp only [List.getElem?_cons_zero, Option.some.injEq] at hx hy'
      rw [← hx, ← hy']; exact hy
    | succ r =>
      rw [show k + (r + 1) = k + 1 + r by omega]
      exact h2 r x y' (by simpa using hx) (by simpa using hy')

theorem generateIntervals_whole (cs : List ChunkInfo) (roi : List (Nat × Nat)) (idx begin : Nat)
    (h : ∀ (k : Nat) (c : ChunkInfo), cs[k]? = some c → roi[idx + k]? = some (0, c.chunkSize)) :
    generateIntervals none idx begin cs = generateIntervals (some roi) idx begin cs := by
  induction cs generalizing idx begin with
  | nil => rfl
  | cons c cs ih =>
    have h0 := h 0 c rfl
    rw [Nat.add_zero] at h0
    have := ih (idx + 1) (begin + c.chunkSize) (fun k c' hc => by
      rw [show idx + 1 + k = idx + (k + 1) by omega]; exact h (k + 1) c' (by simpa using hc))
    simp only [generateIntervals, h0, this, Nat.add_zero]

end LitData
