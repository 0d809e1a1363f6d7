import Verif.Model.Validate

/-! Property C07: a state dict from other settings is refused. -/

namespace LitData.Props
open LitData

/-- What it means for a saved state to fit the running dataset. -/
structure Fits {L : Type} (env : PathEnv) (ds : RunningDataset L) (st : StateDict L) : Prop where
  shuffle : st.shuffle = ds.shuffle
  workers : st.numWorkers = ds.workers
  path : expectedPath env st = ds.inputDirPath
  url : st.inputDirUrl = ds.inputDirUrl
  seed : st.seed = ds.seed
  loader : ds.itemLoader.isSome → st.itemLoader = ds.itemLoader
  dropLast : st.dropLast = ds.dropLast
  count : st.numSamplesYielded ≤ ds.length

theorem checkField_false {L : Type} (f : Bool) (st fixed : StateDict L) : checkField false f st fixed = .ok st := rfl
theorem checkField_refuse {L : Type} (st fixed : StateDict L) :
    checkField true false st fixed = .error .valueError := rfl

/-- **C07.** Without the override option a state is accepted exactly when it fits, and it is then used
unchanged; otherwise `ValueError` is raised. -/
theorem c07_accept_iff_fits {L : Type} [DecidableEq L] (env : PathEnv) (ds : RunningDataset L)
    (hf : ds.force = false) (st : StateDict L) :
    (Fits env ds st → validate env ds st = .ok st) ∧
    (¬ Fits env ds st → validate env ds st = .error .valueError) := by
  have hbne : ∀ {α : Type} [DecidableEq α] (a b : α), (a != b) = decide (a ≠ b) := by
    intro α _ a b; rw [Bool.eq_iff_iff]; simp
  constructor
  · rintro ⟨h1, h2, h3, h4, h5, h6, h7, h8⟩
    have h6' : (ds.itemLoader.isSome && (st.itemLoader != ds.itemLoader)) = false := by
      cases h : ds.itemLoader.isSome with
      | false => rfl
      | true => simp [h6 h]
    unfold validate
    rw [show (st.shuffle != ds.shuffle) = false by simp [h1], checkField_false]
    simp only [Except.bind]
    rw [show (st.numWorkers != ds.workers) = false by simp [h2], checkField_false]
    simp only
    rw [show (expectedPath env st != ds.inputDirPath) = false by simp [h3], checkField_false]
    simp only
    rw [show (st.inputDirUrl != ds.inputDirUrl) = false by simp [h4], checkField_false]
    simp only
    rw [show (st.seed != ds.seed) = false by simp [h5], checkField_false]
    simp only
    rw [h6', checkField_false]
    simp only
    rw [show (st.dropLast != ds.dropLast) = false by simp [h7], checkField_false]
    simp only
    rw [if_neg (by omega)]
  · intro hn
    unfold validate
    rw [hf]
    cases h1 : (st.shuffle != ds.shuffle) with
    | true => rfl
    | false =>
      rw [checkField_false]; simp only [Except.bind]
      cases h2 : (st.numWorkers != ds.workers) with
      | true => rfl
      | false =>
        rw [checkField_false]; simp only
        cases h3 : (expectedPath env st != ds.inputDirPath) with
        | true => rfl
        | false =>
          rw [checkField_false]; simp only
          cases h4 : (st.inputDirUrl != ds.inputDirUrl) with
          | true => rfl
          | false =>
            rw [checkField_false]; simp only
            cases h5 : (st.seed != ds.seed) with
            | true => rfl
            | false =>
              rw [checkField_false]; simp only
              cases h6 : (ds.itemLoader.isSome && (st.itemLoader != ds.itemLoader)) with
              | true => rfl
              | false =>
                rw [checkField_false]; simp only
                cases h7 : (st.dropLast != ds.dropLast) with
                | true => rfl
                | false =>
                  rw [checkField_false]; simp only
                  by_cases h8 : st.numSamplesYielded > ds.length
                  · rw [if_pos h8]
                  · refine absurd ⟨by simpa using h1, by simpa using h2, by simpa using h3, by simpa using h4,
                      by simpa using h5, ?_, by simpa using h7, by omega⟩ hn
                    intro h
                    rw [h] at h6
                    simpa using h6

theorem checkField_force {L : Type} (d : Bool) (st fixed : StateDict L) (f : StateDict L → Py (StateDict L)) :
    (checkField d true st fixed).bind f = f (if d then fixed else st) := by
  cases d <;> rfl

/-- **C07, override.** With the override option the state is refused exactly when it counts more
samples than the dataset has, and otherwise the settings used are those of the running dataset. -/
theorem c07_override {L : Type} [DecidableEq L] (env : PathEnv) (ds : RunningDataset L)
    (hf : ds.force = true) (st : StateDict L) :
    (ds.length < st.numSamplesYielded → validate env ds st = .error .valueError) ∧
    (st.numSamplesYielded ≤ ds.length → ∃ st', validate env ds st = .ok st' ∧
      st'.shuffle = ds.shuffle ∧ st'.numWorkers = ds.workers ∧ st'.inputDirUrl = ds.inputDirUrl ∧
      st'.seed = ds.seed ∧ (ds.itemLoader.isSome → st'.itemLoader = ds.itemLoader) ∧
      st'.dropLast = ds.dropLast ∧
      st'.numSamplesYielded = st.numSamplesYielded ∧ st'.currentEpoch = st.currentEpoch) := by
  unfold validate
  rw [hf]
  rw [checkField_force]
  generalize e1 : (if (st.shuffle != ds.shuffle) = true then { st with shuffle := ds.shuffle } else st) = s1
  rw [checkField_force]
  generalize e2 : (if (s1.numWorkers != ds.workers) = true then { s1 with numWorkers := ds.workers } else s1) = s2
  rw [checkField_force]
  generalize e3 : (if (expectedPath env s2 != ds.inputDirPath) = true then { s2 with inputDirPath := ds.inputDirPath } else s2) = s3
  rw [checkField_force]
  generalize e4 : (if (s3.inputDirUrl != ds.inputDirUrl) = true then { s3 with inputDirUrl := ds.inputDirUrl } else s3) = s4
  rw [checkField_force]
  generalize e5 : (if (s4.seed != ds.seed) = true then { s4 with seed := ds.seed } else s4) = s5
  rw [checkField_force]
  generalize e6 : (if (ds.itemLoader.isSome && (s5.itemLoader != ds.itemLoader)) = true then { s5 with itemLoader := ds.itemLoader } else s5) = s6
  rw [checkField_force]
  generalize e7 : (if (s6.dropLast != ds.dropLast) = true then { s6 with dropLast := ds.dropLast } else s6) = s7
  have f1 : s1.shuffle = ds.shuffle ∧ s1.numSamplesYielded = st.numSamplesYielded ∧ s1.currentEpoch = st.currentEpoch := by
    rw [← e1]; split <;> simp_all
  have f2 : s2.numWorkers = ds.workers ∧ s2.shuffle = s1.shuffle ∧ s2.numSamplesYielded = s1.numSamplesYielded ∧
      s2.currentEpoch = s1.currentEpoch := by
    rw [← e2]; split <;> simp_all
  have f3 : s3.numWorkers = s2.numWorkers ∧ s3.shuffle = s2.shuffle ∧ s3.numSamplesYielded = s2.numSamplesYielded ∧
      s3.currentEpoch = s2.currentEpoch := by
    rw [← e3]; split <;> simp
  have f4 : s4.inputDirUrl = ds.inputDirUrl ∧ s4.numWorkers = s3.numWorkers ∧ s4.shuffle = s3.shuffle ∧
      s4.numSamplesYielded = s3.numSamplesYielded ∧ s4.currentEpoch = s3.currentEpoch := by
    rw [← e4]; split <;> simp_all
  have f5 : s5.seed = ds.seed ∧ s5.inputDirUrl = s4.inputDirUrl ∧ s5.numWorkers = s4.numWorkers ∧ s5.shuffle = s4.shuffle ∧
      s5.numSamplesYielded = s4.numSamplesYielded ∧ s5.currentEpoch = s4.currentEpoch := by
    rw [← e5]; split <;> simp_all
  have f6 : (ds.itemLoader.isSome → s6.itemLoader = ds.itemLoader) ∧ s6.seed = s5.seed ∧
      s6.inputDirUrl = s5.inputDirUrl ∧ s6.numWorkers = s5.numWorkers ∧ s6.shuffle = s5.shuffle ∧
      s6.numSamplesYielded = s5.numSamplesYielded ∧ s6.currentEpoch = s5.currentEpoch := by
    rw [← e6]; split <;> simp_all
  have f7 : s7.dropLast = ds.dropLast ∧ s7.itemLoader = s6.itemLoader ∧ s7.seed = s6.seed ∧
      s7.inputDirUrl = s6.inputDirUrl ∧ s7.numWorkers = s6.numWorkers ∧ s7.shuffle = s6.shuffle ∧
      s7.numSamplesYielded = s6.numSamplesYielded ∧ s7.currentEpoch = s6.currentEpoch := by
    rw [← e7]; split <;> simp_all
  clear e1 e2 e3 e4 e5 e6 e7
  constructor
  · intro hn; rw [if_pos (by omega)]
  · intro hn
    refine ⟨s7, by rw [if_neg (by omega)], ?_⟩
    grind

/-- **What C07 does not cover.** The batch size and the world size recorded in the state are not
compared with anything: whatever they are, the answer is the same. -/
theorem c07_batch_and_world_size_not_checked {L : Type} [DecidableEq L] (env : PathEnv) (ds : RunningDataset L)
    (hf : ds.force = false) (st : StateDict L) (b w : Nat) (hfit : Fits env ds st) :
    validate env ds { st with batchSize := b, worldSize := w } =
      .ok { st with batchSize := b, worldSize := w } := by
  apply (c07_accept_iff_fits env ds hf _).1
  obtain ⟨h1, h2, h3, h4, h5, h6, h7, h8⟩ := hfit
  exact ⟨h1, h2, by rw [← h3]; rfl, h4, h5, h6, h7, h8⟩

/-! The hypotheses can be met, and a differing seed is refused. -/

def demoEnv : PathEnv := ⟨fun p => p.isNone, fun u _ => u.map (· ++ "/cache")⟩

def demoState : StateDict Nat :=
  ⟨4, 2, 2, 1, some "/data", some "s3://d", none, some 7, false, 42, 1, true, ["a.bin"], [(0, 8)]⟩

def demoRunning (seed : Nat) : RunningDataset Nat := ⟨true, 2, some "/data", some "s3://d", seed, some 7, false, 8, false⟩

example : Fits demoEnv (demoRunning 42) demoState := by
  constructor <;> first | rfl | decide | (intro _; rfl)

example : ¬ Fits demoEnv (demoRunning 43) demoState := by
  intro h; have := h.seed; revert this; decide

end LitData.Props
