import Verif.Model.Env
import Verif.Props.Append
import Verif.Props.Assign

/-! C51: every process knows its own place. -/

namespace LitData.Props

open LitData Spec

/-- None of the variables that override the detection is set. -/
structure NoOverride (v : ProcView) : Prop where
  optimize : v.var "DATA_OPTIMIZER_GLOBAL_RANK" = none
  world : v.var "WORLD_SIZE" = none
  rank : v.var "GLOBAL_RANK" = none
  nodes : v.var "NNODES" = none

/-- C51. Under an initialized `torch.distributed` a process is detected with its own rank, if no variable says otherwise; the number
of nodes is right if every node has the same number of GPUs and all of them are used. -/
theorem c51_detect (v : ProcView) (h : NoOverride v) (world rank : Nat) (ht : v.torch = some (world, rank)) :
    (v.gpus = none → detectDist v = .ok ⟨world, rank, 1⟩) ∧
    (∀ g nodes, v.gpus = some g → 0 < g → 0 < nodes → world = nodes * g → detectDist v = .ok ⟨world, rank, nodes⟩) ∧
    (∀ g, v.gpus = some g → world < g → detectDist v = .ok ⟨world, rank, 1⟩) := by
  obtain ⟨h1, h2, h3, h4⟩ := h
  refine ⟨fun hg => ?_, fun g nodes hg hg0 hn hw => ?_, fun g hg hw => ?_⟩
  · simp [detectDist, h1, ht, intVar, h2, h3, h4, guessNodes, hg, bind, Except.bind]
  · subst hw
    have : nodes * g / g = nodes := Nat.mul_div_cancel _ hg0
    simp only [detectDist, h1, ht, intVar, h2, h3, h4, guessNodes, hg, bind, Except.bind, this]
    simp [show 1 ≤ nodes from hn]
  · simp [detectDist, h1, ht, intVar, h2, h3, h4, guessNodes, hg, bind, Except.bind, Nat.div_eq_of_lt hw]

/-- C51. The numbers of the workers of all ranks are distinct and fill the range of shards. -/
theorem c51_shards (W nw nodes : Nat) :
    (∀ r < W, ∀ k < nw, shardRank ⟨W, r, nodes⟩ (nw, k) < numShards ⟨W, r, nodes⟩ (nw, k)) ∧
    (∀ r < W, ∀ k < nw, ∀ r' < W, ∀ k' < nw, shardRank ⟨W, r, nodes⟩ (nw, k) = shardRank ⟨W, r', nodes⟩ (nw, k') → r = r' ∧ k = k') ∧
    ∀ i < nw * W, ∃ r < W, ∃ k < nw, shardRank ⟨W, r, nodes⟩ (nw, k) = i := by
  simp only [shardRank, numShards]
  have hdiv : ∀ r k, k < nw → (r * nw + k) / nw = r ∧ (r * nw + k) % nw = k := by
    intro r k hk
    rw [Nat.mul_comm r nw]
    exact ⟨by rw [Nat.mul_add_div (by omega), Nat.div_eq_of_lt hk]; omega, by rw [Nat.mul_add_mod, Nat.mod_eq_of_lt hk]⟩
  refine ⟨fun r hr k hk => ?_, fun r _ k hk r' _ k' hk' e => ?_, fun i hi => ?_⟩
  · have := Nat.mul_le_mul_right nw (show r + 1 ≤ W from hr)
    rw [Nat.succ_mul, Nat.mul_comm W] at this
    omega
  · have h1 := hdiv r k hk
    have h2 := hdiv r' k' hk'
    rw [e] at h1
    exact ⟨by rw [← h1.1, h2.1], by rw [← h1.2, h2.2]⟩
  · have hnw : 0 < nw := by
      rcases Nat.eq_zero_or_pos nw with e | e
      · rw [e, Nat.zero_mul] at hi; omega
      · exact e
    exact ⟨i / nw, (Nat.div_lt_iff_lt_mul hnw).2 (by rw [Nat.mul_comm]; exact hi), i % nw, Nat.mod_lt _ hnw,
      by rw [Nat.mul_comm]; exact Nat.div_add_mod i nw⟩

/-- C51. The workers of `map` and `optimize` on all nodes are detected as one world with distinct ranks. -/
theorem c51_optimize (nodes workers node worker : Nat) :
    detectDist (optimizeView nodes workers node worker) = .ok ⟨workers * nodes, node * workers + worker, nodes⟩ := by
  simp [detectDist, detectOptimize, intVar, optimizeView, parseInt_toDigits, bind, Except.bind]

/-- **Before `torch.distributed` is initialized every process believes to be rank 0.** `torchrun` sets `WORLD_SIZE` and `RANK`, but it is
`GLOBAL_RANK` that is looked at. -/
theorem c51_uninitialized (v : ProcView) (world : Nat) (hopt : v.var "DATA_OPTIMIZER_GLOBAL_RANK" = none)
    (hw : v.var "WORLD_SIZE" = some (Nat.toDigits 10 world)) (hr : v.var "GLOBAL_RANK" = none) (hn : v.var "NNODES" = none)
    (ht : v.torch = none) : detectDist v = .ok ⟨world, 0, 1⟩ := by
  simp [detectDist, hopt, ht, intVar, hw, hr, hn, parseInt_toDigits, bind, Except.bind]

/-- All of them then read the same part of the dataset: one rank's worth instead of the whole. -/
theorem c51_uninitialized_reads (W : Nat) (idx : List Nat) (ivs : List Interval) (nw bs : Nat) (hW : 0 < W) (hnw : 0 < nw) (hbs : 0 < bs)
    (hlen : idx.length = ivs.length) :
    ∃ ws, associate W idx ivs true nw bs = .ok ws ∧
      W * (rankSamples ws 0 nw).length ≤ (datasetSamples idx ivs).length := by
  obtain ⟨ws, h1, h2⟩ := c41_len_closed_form W idx ivs true nw bs hW hnw hbs hlen
  refine ⟨ws, h1, ?_⟩
  rw [← c41_len_is_delivered, h2 0 hW]
  simp only [Bool.true_eq_false, false_and, if_false]
  generalize (datasetSamples idx ivs).length = n
  calc W * (bs * (n / (bs * W))) = n / (bs * W) * (bs * W) := by
        rw [Nat.mul_comm W, Nat.mul_comm bs, Nat.mul_assoc]
    _ ≤ n := Nat.div_mul_le_self _ _

/-- Several nodes without GPUs are taken for one. -/
theorem c51_cpu_nodes (v : ProcView) (h : NoOverride v) (world rank : Nat) (ht : v.torch = some (world, rank)) (hg : v.gpus = none) :
    detectDist v = .ok ⟨world, rank, 1⟩ := (c51_detect v h world rank ht).1 hg

/-- A process of a run on two nodes with four GPUs each, without variables. -/
example : detectDist ⟨fun _ => none, some (8, 5), some 4, none⟩ = .ok ⟨8, 5, 2⟩ := by decide
example : NoOverride ⟨fun _ => none, some (8, 5), some 4, none⟩ := ⟨rfl, rfl, rfl, rfl⟩
/-- Six processes on machines with four GPUs. -/
example : detectDist ⟨fun _ => none, some (6, 5), some 4, none⟩ = .ok ⟨6, 5, 1⟩ := by decide
example : detectDist ⟨fun _ => none, some (9, 5), some 4, none⟩ = .error .runtimeError := by decide

/-- C51. What a process concludes about its shard: a process that is no data loader worker is the only worker of its rank, and has the
number of its rank. -/
theorem c51_shard_of (v : ProcView) (h : NoOverride v) (world rank : Nat) (ht : v.torch = some (world, rank)) (d : DistEnv)
    (hd : detectDist v = .ok d) :
    (v.worker = none → shardRank d (detectWorker v) = rank ∧ numShards d (detectWorker v) = world) ∧
    ∀ nw k, v.worker = some (nw, k) → shardRank d (detectWorker v) = rank * nw + k ∧ numShards d (detectWorker v) = nw * world := by
  have hw : d.worldSize = world ∧ d.globalRank = rank := by
    obtain ⟨h1, h2, h3, h4⟩ := h
    simp only [detectDist, h1, ht, intVar, h2, h3, h4, bind, Except.bind, Option.isSome_none, Bool.false_eq_true, if_false] at hd
    split at hd
    · cases hd
    · injection hd with hd
      subst hd
      exact ⟨rfl, rfl⟩
  constructor
  · intro hn
    simp [shardRank, numShards, detectWorker, hn, hw]
  · intro nw k hn
    simp [shardRank, numShards, detectWorker, hn, hw]

/-- C51. The workers of `map` and `optimize` are shards of their own: worker `worker` of node `node` has the number
`node * workers + worker` of `nodes * workers`. -/
theorem c51_optimize_shard (nodes workers node worker : Nat) (d : DistEnv) (hd : detectDist (optimizeView nodes workers node worker) = .ok d) :
    shardRank d (detectWorker (optimizeView nodes workers node worker)) = node * workers + worker ∧
    numShards d (detectWorker (optimizeView nodes workers node worker)) = workers * nodes := by
  rw [c51_optimize] at hd
  injection hd with hd
  subst hd
  simp [shardRank, numShards, detectWorker, optimizeView]

example : shardRank ⟨8, 5, 2⟩ (detectWorker ⟨fun _ => none, some (8, 5), some 4, some (3, 1)⟩) = 16 := by decide

end LitData.Props
