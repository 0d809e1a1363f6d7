import Verif.Lemmas.Names

/-! The merge of index files. -/

namespace LitData

theorem dirGet_remove_ne {C : Type} (d : CacheDir C) (f g : String) (h : f ≠ g) : dirGet (dirRemove d f) g = dirGet d g := by
  unfold dirGet dirRemove
  rw [List.find?_filter]
  congr 1
  apply congrArg (fun p => List.find? p d)
  funext e
  by_cases he : e.1 = g
  · simp [he, Ne.symm h]
  · simp [he]

theorem dirGet_write_ne {C : Type} (d : CacheDir C) (f g : String) (c : CacheFile C) (h : f ≠ g) :
    dirGet (dirWrite d f c) g = dirGet d g := by
  rw [← dirGet_remove_ne d f g h]
  unfold dirGet dirWrite
  rw [List.find?_append]
  cases hh : List.find? (fun e => e.1 == g) (dirRemove d f) with
  | some e => rfl
  | none => simp [h]

theorem dirGet_write {C : Type} (d : CacheDir C) (f : String) (c : CacheFile C) : dirGet (dirWrite d f c) f = some c := by
  unfold dirGet dirWrite
  rw [List.find?_append]
  have : List.find? (fun e => e.1 == f) (dirRemove d f) = none := by
    rw [List.find?_eq_none]
    intro e he
    unfold dirRemove at he
    simpa using (List.mem_filter.1 he).2
  rw [this]
  simp

theorem dirGet_mem {C : Type} (d : CacheDir C) (hn : (d.map (·.1)).Nodup) (f : String) (c : CacheFile C) (h : (f, c) ∈ d) :
    dirGet d f = some c := by
  induction d with
  | nil => simp at h
  | cons e d ih =>
    simp only [List.map_cons, List.nodup_cons] at hn
    unfold dirGet
    rw [List.find?_cons]
    rcases List.mem_cons.1 h with h | h
    · subst h; simp
    · have : e.1 ≠ f := fun he => hn.1 (by rw [he]; exact List.mem_map_of_mem h)
      rw [show (e.1 == f) = false by simpa using this]
      exact ih hn.2 h

theorem mergeLoop_ok {C : Type} [DecidableEq C] (c : C) (data : String → List ChunkInfo) (fs : List String) (hnd : fs.Nodup)
    (d : CacheDir C) (h : ∀ f ∈ fs, dirGet d f = some (.index ⟨data f, some c⟩)) (acc : IndexData C)
    (hacc : acc.config = none ∨ acc.config = some c) :
    ∃ d', mergeLoop fs d acc = (.ok ⟨acc.chunks ++ fs.flatMap data, if fs = [] then acc.config else some c⟩, d') ∧
      (∀ g, g ∉ fs → dirGet d' g = dirGet d g) ∧ (∀ e, e ∈ d' ↔ e ∈ d ∧ e.1 ∉ fs) := by
  induction fs generalizing d acc with
  | nil => exact ⟨d, by simp [mergeLoop], by simp, by simp⟩
  | cons f fs ih =>
    rw [List.nodup_cons] at hnd
    have hg := h f (by simp)
    have hgs : ∀ g ∈ fs, dirGet (dirRemove d f) g = some (.index ⟨data g, some c⟩) := by
      intro g hg
      rw [dirGet_remove_ne d f g (fun e => hnd.1 (e ▸ hg))]
      exact h g (by simp [hg])
    have step : mergeLoop (f :: fs) d acc = mergeLoop fs (dirRemove d f) ⟨acc.chunks ++ data f, some c⟩ := by
      rcases hacc with ha | ha
      · simp only [mergeLoop, hg, ha]
      · simp only [mergeLoop, hg, ha, if_true]
    obtain ⟨d', h1, h2, h3⟩ := ih hnd.2 (dirRemove d f) hgs ⟨acc.chunks ++ data f, some c⟩ (Or.inr rfl)
    refine ⟨d', ?_, ?_, ?_⟩
    · rw [step, h1]
      simp
    · intro g hg
      simp only [List.mem_cons, not_or] at hg
      rw [h2 g hg.2, dirGet_remove_ne d f g (fun e => hg.1 e.symm)]
    · intro e
      rw [h3]
      simp only [dirRemove, List.mem_filter, bne_iff_ne, ne_eq, List.mem_cons, not_or, and_assoc]

/-- If the loop succeeds, all configurations it has seen are the same. -/
theorem mergeLoop_config {C : Type} [DecidableEq C] (fs : List String) (hnd : fs.Nodup) (d d' : CacheDir C) (acc i : IndexData C)
    (h : mergeLoop fs d acc = (.ok i, d')) :
    (∀ c, acc.config = some c → i.config = some c) ∧
    ∀ f ∈ fs, ∃ x, dirGet d f = some (.index x) ∧ ∀ c, x.config = some c → i.config = some c := by
  induction fs generalizing d acc with
  | nil =>
    simp only [mergeLoop, Prod.mk.injEq, Except.ok.injEq] at h
    exact ⟨fun c hc => by rw [← h.1, hc], by simp⟩
  | cons f fs ih =>
    rw [List.nodup_cons] at hnd
    unfold mergeLoop at h
    split at h
    · rename_i x hx
      have keep : ∀ g ∈ fs, dirGet (dirRemove d f) g = dirGet d g := fun g hg =>
        dirGet_remove_ne d f g (fun e => hnd.1 (e ▸ hg))
      split at h
      · rename_i hc
        obtain ⟨h1, h2⟩ := ih hnd.2 _ _ h
        refine ⟨by rw [hc]; simp, ?_⟩
        intro g hg
        rcases List.mem_cons.1 hg with rfl | hg
        · exact ⟨x, hx, h1⟩
        · rw [← keep g hg]; exact h2 g hg
      · rename_i c hc
        split at h
        · rename_i he
          obtain ⟨h1, h2⟩ := ih hnd.2 _ _ h
          refine ⟨by rw [hc]; exact h1, ?_⟩
          intro g hg
          rcases List.mem_cons.1 hg with rfl | hg
          · exact ⟨x, hx, fun c' hc' => h1 c' (by rw [he]; exact hc')⟩
          · rw [← keep g hg]; exact h2 g hg
        · simp at h
    · simp at h
    · simp at h

/-- The loop only removes files. -/
theorem mergeLoop_dir {C : Type} [DecidableEq C] (fs : List String) (d : CacheDir C) (acc : IndexData C) (g : String) (hg : g ∉ fs) :
    dirGet (mergeLoop fs d acc).2 g = dirGet d g := by
  induction fs generalizing d acc with
  | nil => rfl
  | cons f fs ih =>
    simp only [List.mem_cons, not_or] at hg
    have := dirGet_remove_ne d f g (fun e => hg.1 e.symm)
    unfold mergeLoop
    repeat' split
    all_goals first
      | (rw [ih _ _ hg.2, this])
      | rfl

/-- A read error other than the configuration one cannot come from well-formed index files. -/
theorem mergeLoop_error {C : Type} [DecidableEq C] (fs : List String) (hnd : fs.Nodup) (d : CacheDir C) (acc : IndexData C)
    (h : ∀ f ∈ fs, ∃ x, dirGet d f = some (.index x)) (e : Err) (he : (mergeLoop fs d acc).1 = .error e) : e = .exception := by
  induction fs generalizing d acc with
  | nil => simp [mergeLoop] at he
  | cons f fs ih =>
    rw [List.nodup_cons] at hnd
    obtain ⟨x, hx⟩ := h f (by simp)
    have keep : ∀ g ∈ fs, ∃ x, dirGet (dirRemove d f) g = some (.index x) := fun g hg => by
      rw [dirGet_remove_ne d f g (fun e => hnd.1 (e ▸ hg))]; exact h g (by simp [hg])
    unfold mergeLoop at he
    rw [hx] at he
    simp only at he
    split at he
    · exact ih hnd.2 _ _ keep he
    · split at he
      · exact ih hnd.2 _ _ keep he
      · simpa using he.symm

end LitData
