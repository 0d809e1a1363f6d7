import Verif.Props.CombinedLoader
import Verif.Model.ResumedCombined

/-!
C98 for combined datasets: the counters of a loader that was resumed, over all its later passes.
-/

namespace LitData.Props
open LitData Spec

theorem combined_batches (nw : Nat) : ∀ (incs : List (List Nat)) (s : CombinedScript),
    let t := incs.foldl (combinedPassBatch nw) s
    t.shared = s.shared ∧ t.base = s.base ∧ t.loader.restore = s.loader.restore ∧ t.loader.epoch = s.loader.epoch ∧ (s.shared = false → t.ds = s.ds) ∧
    (s.shared = true → s.ds.numSamplesYielded = some s.loader.yieldedCombined → t.ds.numSamplesYielded = some t.loader.yieldedCombined)
  | [], s => ⟨rfl, rfl, rfl, rfl, fun _ => rfl, fun _ h => h⟩
  | inc :: incs, s => by
    intro t
    obtain ⟨h1, h2, h3, h4, h5, h6⟩ := combined_batches nw incs (combinedPassBatch nw s inc)
    refine ⟨h1, h2, h3, h4, ?_, ?_⟩
    · intro hs
      have e : (combinedPassBatch nw s inc).ds = s.ds := by simp [combinedPassBatch, hs]
      rw [← e]
      exact h5 hs
    · intro hs hd
      refine h6 hs ?_
      simp [combinedPassBatch, loaderBatchCombined, hs, hd]

/-- **C98, combined datasets, while the loader restores.** Through any number of passes that are broken off, the counters with which the workers of the next pass will begin are the ones that
the loader records, because the two share one dictionary. -/
theorem c98_combined_shared (n nw : Nat) : ∀ (passes : List (List (List Nat))) (s : CombinedScript), s.loader.restore = true → s.shared = true →
    s.ds.numSamplesYielded = some s.loader.yieldedCombined →
    let t := passes.foldl (fun s p => combinedPass n nw s (p, false)) s
    t.loader.restore = true ∧ t.shared = true ∧ t.loader.epoch = s.loader.epoch ∧ t.ds.numSamplesYielded = some t.loader.yieldedCombined
  | [], s, hr, hs, hd => ⟨hr, hs, rfl, hd⟩
  | p :: passes, s, hr, hs, hd => by
    intro t
    have hb : loaderBegin s.loader = s.loader := by unfold loaderBegin; rw [if_pos hr]
    obtain ⟨h1, _, h3, h4, _, h6⟩ := combined_batches nw p (combinedPassBegin n s)
    have e : combinedPass n nw s (p, false) = p.foldl (combinedPassBatch nw) (combinedPassBegin n s) := rfl
    have a := c98_combined_shared n nw passes (combinedPass n nw s (p, false))
    rw [e] at a
    have b := a (by rw [h3]; show (loaderBegin s.loader).restore = true; rw [hb]; exact hr)
      (by rw [h1]; simp [combinedPassBegin, hs, hr])
      (h6 (by simp [combinedPassBegin, hs, hr]) (by show s.ds.numSamplesYielded = some (loaderBegin s.loader).yieldedCombined; rw [hb]; exact hd))
    refine ⟨b.1, b.2.1, ?_, b.2.2.2⟩
    refine b.2.2.1.trans ?_
    rw [h4]
    show (loaderBegin s.loader).epoch = _
    rw [hb]

/-- **C98, combined datasets, after the resumed pass.** Once a resumed pass has been read to its end, the counters at its end stay in the dataset for good: in every later pass, whatever passes
come between, each worker begins with them, and not with zeros. -/
theorem c98_combined_stale (n nw : Nat) (s : CombinedScript) (hr : s.loader.restore = true) (hs : s.shared = true)
    (hd : s.ds.numSamplesYielded = some s.loader.yieldedCombined) (incs : List (List Nat)) (later : List (List (List Nat) × Bool)) :
    let ended := combinedPass n nw s (incs, true)
    let t := later.foldl (combinedPass n nw) ended
    t.loader.restore = false ∧ t.loader.epoch = s.loader.epoch + later.length ∧ t.ds.numSamplesYielded = some ended.loader.yieldedCombined ∧
    ∀ w, (combinedPassBegin n t).base w = ((ended.loader.yieldedCombined).lookup w).getD (List.replicate n 0) := by
  intro ended t
  have hb : loaderBegin s.loader = s.loader := by unfold loaderBegin; rw [if_pos hr]
  obtain ⟨_, _, _, h4, _, h6⟩ := combined_batches nw incs (combinedPassBegin n s)
  have hend : ended = { incs.foldl (combinedPassBatch nw) (combinedPassBegin n s) with loader := loaderEnd (incs.foldl (combinedPassBatch nw) (combinedPassBegin n s)).loader } := rfl
  have hde : ended.ds.numSamplesYielded = some ended.loader.yieldedCombined :=
    h6 (by simp [combinedPassBegin, hs, hr]) (by show s.ds.numSamplesYielded = some (loaderBegin s.loader).yieldedCombined; rw [hb]; exact hd)
  have hre : ended.loader.restore = false := rfl
  have hep : ended.loader.epoch = s.loader.epoch := by
    show (loaderEnd _).epoch = _
    unfold loaderEnd
    show (List.foldl (combinedPassBatch nw) (combinedPassBegin n s) incs).loader.epoch = _
    rw [h4]
    show (loaderBegin s.loader).epoch = _
    rw [hb]
  have key : ∀ (later : List (List (List Nat) × Bool)) (u : CombinedScript), u.loader.restore = false →
      (later.foldl (combinedPass n nw) u).loader.restore = false ∧ (later.foldl (combinedPass n nw) u).loader.epoch = u.loader.epoch + later.length ∧
      (later.foldl (combinedPass n nw) u).ds = u.ds := by
    intro later
    induction later with
    | nil => intro u hu; exact ⟨hu, rfl, rfl⟩
    | cons p later ih =>
      intro u hu
      obtain ⟨_, _, g3, g4, g5, _⟩ := combined_batches nw p.1 (combinedPassBegin n u)
      have hub : (loaderBegin u.loader).restore = false ∧ (loaderBegin u.loader).epoch = u.loader.epoch + 1 := by
        unfold loaderBegin; rw [hu]; exact ⟨rfl, rfl⟩
      have q1 : (combinedPass n nw u p).loader.restore = false := by
        unfold combinedPass
        simp only
        split
        · rfl
        · rw [g3]; exact hub.1
      have q2 : (combinedPass n nw u p).loader.epoch = u.loader.epoch + 1 := by
        unfold combinedPass
        simp only
        split
        · show (List.foldl (combinedPassBatch nw) _ p.1).loader.epoch = _
          rw [g4]; exact hub.2
        · rw [g4]; exact hub.2
      have q3 : (combinedPass n nw u p).ds = u.ds := by
        have : (p.1.foldl (combinedPassBatch nw) (combinedPassBegin n u)).ds = u.ds := g5 (by simp [combinedPassBegin, hu])
        unfold combinedPass
        simp only
        split <;> exact this
      obtain ⟨i1, i2, i3⟩ := ih (combinedPass n nw u p) q1
      refine ⟨i1, ?_, i3.trans q3⟩
      rw [List.foldl_cons, i2, q2, List.length_cons]
      omega
  obtain ⟨k1, k2, k3⟩ := key later ended hre
  refine ⟨k1, by rw [k2, hep], by rw [k3]; exact hde, ?_⟩
  intro w
  show combinedBase n t.ds w = _
  unfold combinedBase
  rw [show t.ds = ended.ds from k3, hde]

theorem zip_sum : ∀ (a b : List Nat), a.length = b.length → (List.zipWith (· + ·) a b).sum = a.sum + b.sum
  | [], [], _ => rfl
  | x :: a, y :: b, h => by
    have := zip_sum a b (by simpa using h)
    simp only [List.zipWith_cons_cons, List.sum_cons, this]
    omega
  | [], _ :: _, h => by simp at h
  | _ :: _, [], h => by simp at h

/-- The batches of a later pass do to the loader what batches with the counters of the workers do. -/
theorem combined_loader (nw : Nat) (f : Nat → List Nat) : ∀ (incs : List (List Nat)) (s : CombinedScript), s.base = f →
    (incs.foldl (combinedPassBatch nw) s).loader =
      (incs.mapIdx fun p inc => List.zipWith (· + ·) (f ((s.loader.cycle + p) % cycleLength nw)) inc).foldl (fun l c => loaderBatchCombined nw c l) s.loader
  | [], _, _ => rfl
  | inc :: incs, s, hf => by
    rw [List.foldl_cons, List.mapIdx_cons, List.foldl_cons]
    rw [combined_loader nw f incs (combinedPassBatch nw s inc) hf]
    have e : (combinedPassBatch nw s inc).loader = loaderBatchCombined nw (List.zipWith (· + ·) (f ((s.loader.cycle + 0) % cycleLength nw)) inc) s.loader := by
      rw [← hf]; rfl
    have hc : (combinedPassBatch nw s inc).loader.cycle = s.loader.cycle + 1 := rfl
    rw [hc, ← e]
    congr 2
    funext p inc'
    rw [show s.loader.cycle + 1 + p = s.loader.cycle + (p + 1) by omega]

/-- **C98, combined datasets, a state saved later.** Resume a loader, read the pass to its end, and save a state in any later epoch once every worker has given a batch. The state counts the samples of the resumed
epoch too. If these were at least as many as the dataset has, then a loader without weights that loads the state does not restore: it begins the next epoch, and the rest of the epoch is lost. -/
theorem c98_combined_lost (n nw len : Nat) (hnw : 0 < nw) (s : CombinedScript) (hr : s.loader.restore = true) (hs : s.shared = true)
    (hd : s.ds.numSamplesYielded = some s.loader.yieldedCombined) (incs : List (List Nat)) (later : List (List (List Nat) × Bool))
    (F : Nat → List Nat) (hF : F = fun w => ((combinedPass n nw s (incs, true)).loader.yieldedCombined.lookup w).getD (List.replicate n 0)) (hFn : ∀ w, w < nw → (F w).length = n)
    -- the later epoch, broken off after `k` batches
    (k : Nat) (hk : nw ≤ k) (inc : Nat → Nat → List Nat) (hin : ∀ w j, (inc w j).length = n)
    (t : CombinedScript) (ht : t = ((List.range k).map fun p => inc (p % nw) (p / nw + 1)).foldl (combinedPassBatch nw)
      (combinedPassBegin n (later.foldl (combinedPass n nw) (combinedPass n nw s (incs, true))))) :
    ((loaderDict t.loader).yieldedCombined.map fun x => x.2.sum).sum =
      ((List.range nw).map fun w => (F w).sum).sum + ((List.range nw).map fun w => (inc w (Spec.visits k nw w)).sum).sum ∧
    (len ≤ ((List.range nw).map fun w => (F w).sum).sum →
      (loaderLoadCombined true len (loaderDict t.loader) newLoader).restore = false ∧
      (loaderBegin (loaderLoadCombined true len (loaderDict t.loader) newLoader)).epoch = s.loader.epoch + later.length + 2) := by
  obtain ⟨h1, h2, _, h4⟩ := c98_combined_stale n nw s hr hs hd incs later
  obtain ⟨u, hu⟩ : ∃ u, u = later.foldl (combinedPass n nw) (combinedPass n nw s (incs, true)) := ⟨_, rfl⟩
  simp only [← hu] at h1 h2 h4 ht
  have hbase : (combinedPassBegin n u).base = F := by rw [hF]; funext w; exact h4 w
  have hcyc : (combinedPassBegin n u).loader = loaderBegin u.loader := rfl
  have hc0 : (loaderBegin u.loader).cycle = 0 := by unfold loaderBegin; rw [h1]; rfl
  have hcl : cycleLength nw = nw := by unfold cycleLength; rw [if_pos (by omega)]
  have hl := combined_loader nw F ((List.range k).map fun p => inc (p % nw) (p / nw + 1)) (combinedPassBegin n u) hbase
  rw [← ht, hcyc, hc0, hcl] at hl
  have hm : (((List.range k).map fun p => inc (p % nw) (p / nw + 1)).mapIdx fun p i => List.zipWith (· + ·) (F ((0 + p) % nw)) i) =
      (List.range k).map fun p => (fun w j => List.zipWith (· + ·) (F w) (inc w j)) (p % nw) (p / nw + 1) := by
    apply List.ext_getElem?
    intro i
    simp only [List.getElem?_mapIdx, List.getElem?_map]
    by_cases hi : i < k
    · simp [List.getElem?_range hi]
    · simp [List.getElem?_eq_none (show (List.range k).length ≤ i by simp; omega)]
  rw [hm] at hl
  have hsv := saved_counts nw hnw (fun w j => List.zipWith (· + ·) (F w) (inc w j)) u.loader h1 k
  have hyc : (loaderDict t.loader).yieldedCombined = (List.range nw).map fun i => (i, List.zipWith (· + ·) (F i) (inc i (Spec.visits k nw i))) := by
    rw [hl, hsv, Nat.min_eq_right hk]
  have htot : ((loaderDict t.loader).yieldedCombined.map fun x => x.2.sum).sum =
      ((List.range nw).map fun w => (F w).sum).sum + ((List.range nw).map fun w => (inc w (Spec.visits k nw w)).sum).sum := by
    rw [hyc, List.map_map]
    have : ∀ m, m ≤ nw → ((List.range m).map ((fun x : Nat × List Nat => x.2.sum) ∘ fun i => (i, List.zipWith (· + ·) (F i) (inc i (Spec.visits k nw i))))).sum =
        ((List.range m).map fun w => (F w).sum).sum + ((List.range m).map fun w => (inc w (Spec.visits k nw w)).sum).sum := by
      intro m
      induction m with
      | zero => intro _; rfl
      | succ m ih =>
        intro hm
        have := ih (by omega)
        simp only [List.range_succ, List.map_append, List.sum_append, List.map_cons, List.map_nil, List.sum_cons, List.sum_nil, this, Function.comp_apply]
        rw [zip_sum _ _ (by rw [hFn m (by omega), hin])]
        omega
    exact this nw (Nat.le_refl _)
  refine ⟨htot, ?_⟩
  intro hle
  have hres : (loaderLoadCombined true len (loaderDict t.loader) newLoader).restore = false := by
    unfold loaderLoadCombined newLoader
    simp only [htot]
    have : ¬ ((List.range nw).map fun w => (F w).sum).sum + ((List.range nw).map fun w => (inc w (Spec.visits k nw w)).sum).sum < len := by omega
    simp [this]
  refine ⟨hres, ?_⟩
  unfold loaderBegin
  rw [hres]
  show (loaderDict t.loader).epoch + 1 = _
  have hte : t.loader.epoch = (loaderBegin u.loader).epoch := by
    obtain ⟨_, _, _, g4, _⟩ := combined_batches nw ((List.range k).map fun p => inc (p % nw) (p / nw + 1)) (combinedPassBegin n u)
    rw [ht]
    exact g4
  show t.loader.epoch + 1 = _
  rw [hte]
  unfold loaderBegin
  rw [h1]
  show u.loader.epoch + 1 + 1 = _
  rw [h2]

/-- A loader into which a state was loaded, and which restores, is one of those of the theorems above. -/
theorem c98_combined_loaded (iterateOverAll : Bool) (len : Nat) (d : LoaderDict) (s : CombinedScript)
    (h : iterateOverAll = false ∨ (0 < (d.yieldedCombined.map fun x => x.2.sum).sum ∧ (d.yieldedCombined.map fun x => x.2.sum).sum < len)) :
    let t := combinedScriptLoad iterateOverAll len d s
    t.loader.restore = true ∧ t.shared = true ∧ t.ds.numSamplesYielded = some t.loader.yieldedCombined := by
  refine ⟨?_, rfl, rfl⟩
  unfold combinedScriptLoad loaderLoadCombined
  rcases h with h | ⟨h1, h2⟩
  · simp [h]
  · cases iterateOverAll <;> simp [h1, h2]

/-- Two datasets with four samples each, one worker, batches of one. A state after two batches is loaded, the six others are read to the end; in the next epoch a state is saved after one batch. It counts nine samples, so a
loader that loads it begins another epoch. -/
theorem c98_combined_example :
    let s := combinedScriptLoad true 8 ⟨1, 0, [(0, [1, 1])], 0⟩ combinedScriptNew
    let e := combinedPass 2 1 s ([[1, 0], [1, 1], [2, 1], [2, 2], [3, 2], [3, 3]], true)
    let t := combinedPass 2 1 e ([[1, 0]], false)
    s.loader.restore = true ∧ e.loader.yieldedCombined = [(0, [4, 4])] ∧ (loaderDict t.loader).yieldedCombined = [(0, [5, 4])] ∧
    (loaderLoadCombined true 8 (loaderDict t.loader) newLoader).restore = false := by decide +kernel

end LitData.Props
