import Verif.Lemmas.Nodes
import Verif.Lemmas.LoaderIter
import Verif.Props.Modes

/-! Property C63: the index that several nodes write together. -/

namespace LitData.Props
open LitData

/-- What holds at every moment, when the chunks of the workers of node `n` are `ws n` and the output directory had no indexes of nodes. -/
structure NodesInv {C : Type} (c : C) (N : Nat) (ws : Nat → List (List ChunkInfo)) (out0 : String → Option (IndexData C)) (cache0 : Nat → CacheDir C)
    (s : NodesWorld C) : Prop where
  cache : ∀ n, n < N → s.phase n = .working → s.cache n = cache0 n
  fresh : ∀ n, n < N → s.phase n = .working → s.out (nodeIndexName n) = none
  sent : ∀ n, n < N → s.phase n ≠ .working → s.out (nodeOutName N n) = some ⟨inRankOrder (ws n), some c⟩
  others : ∀ n, n + 1 < N → s.phase n = .working ∨ s.phase n = .done
  fetched : ∀ n k, n < N → s.phase n = .collecting k → n + 1 = N ∧ 1 < N ∧ k ≤ N - 1 ∧
    HoldsNodes (fun n => ⟨inRankOrder (ws n), some c⟩) (fun j => j < k ∨ j = N - 1) (s.cache n)
  alive : ∀ n, n < N → s.phase n ≠ .failed
  early : s.phase (N - 1) ≠ .done → s.out "index.json" = out0 "index.json"
  ends : s.phase (N - 1) = .done → s.out "index.json" = some ⟨(nodeOrder N).flatMap fun n => inRankOrder (ws n), some c⟩

theorem nodeIndexName_ne_index (r : Nat) : nodeIndexName r ≠ "index.json" := by
  intro h
  have := congrArg String.toList h
  unfold nodeIndexName at this
  rw [String.toList_ofList] at this
  have hl := congrArg List.length this
  have : (Nat.toDigits 10 r).length ≠ 0 := by simp
  simp at hl

theorem mergedName_arg (N n : Nat) : mergedName (nodeRankArg N n) = nodeOutName N n := by
  unfold nodeRankArg nodeOutName
  split <;> rfl

theorem nodeOutName_one (n : Nat) : nodeOutName 1 n = "index.json" := rfl

theorem nodeOutName_many (N n : Nat) (h : 1 < N) : nodeOutName N n = nodeIndexName n := by
  unfold nodeOutName
  rw [if_pos h]

theorem nodesInv_reach {C : Type} [DecidableEq C] (c : C) (N : Nat) (hN : 0 < N) (ws : Nat → List (List ChunkInfo)) (out0 : String → Option (IndexData C))
    (cache0 : Nat → CacheDir C) (hdone : ∀ n, n < N → WorkersDone c (ws n) (cache0 n)) (hne : ∀ n, n < N → (ws n).flatten ≠ [])
    (hout : ∀ n, n < N → out0 (nodeIndexName n) = none) (k : Nat) (s : NodesWorld C) (h : NodesReach true N none out0 cache0 k s) :
    NodesInv c N ws out0 cache0 s := by
  induction h with
  | start =>
    refine ⟨fun _ _ _ => rfl, fun n hn _ => hout n hn, fun n hn h => absurd rfl h, fun _ _ => Or.inl rfl, ?_, ?_, fun _ => rfl, ?_⟩
    all_goals intros; simp_all
  | @step s s' k _ hs ih =>
    cases hs with
    | merge n d x hn hp hm hx =>
      rw [ih.cache n hn hp] at hm
      obtain ⟨d', m1, m2, m3, m4⟩ := merge_node c (ws n) (cache0 n) (hdone n hn) (nodeRankArg N n) (hne n hn)
      rw [m1] at hm
      injection hm with _ hm
      subst hm
      rw [mergedName_arg] at m2 m3
      rw [m2] at hx
      injection hx with hx
      injection hx with hx
      subst hx
      by_cases h1 : 1 < N
      · rw [nodeOutName_many N n h1] at m2 m3 ⊢
        constructor
        · intro m hm hw
          simp only [upd] at hw ⊢
          by_cases e : m = n
          · rw [if_pos e] at hw; split at hw <;> cases hw
          · rw [if_neg e] at hw ⊢
            exact ih.cache m hm hw
        · intro m hm hw
          simp only [upd] at hw
          by_cases e : m = n
          · rw [if_pos e] at hw; split at hw <;> cases hw
          · rw [if_neg e] at hw
            simp only [putIndex]
            rw [if_neg (fun he => e (nodeIndexName_inj _ _ he))]
            exact ih.fresh m hm hw
        · intro m hm hw
          simp only [upd] at hw
          simp only [putIndex]
          rw [nodeOutName_many N m h1]
          by_cases e : m = n
          · subst e; rw [if_pos rfl]
          · rw [if_neg e] at hw
            rw [if_neg (fun he => e (nodeIndexName_inj _ _ he))]
            have := ih.sent m hm hw
            rwa [nodeOutName_many N m h1] at this
        · intro m hm
          simp only [upd]
          by_cases e : m = n
          · rw [if_pos e, if_neg (by omega)]; exact Or.inr rfl
          · rw [if_neg e]; exact ih.others m hm
        · intro m j hm hw
          simp only [upd] at hw ⊢
          by_cases e : m = n
          · subst e
            rw [if_pos rfl] at hw ⊢
            split at hw
            · rename_i hl
              injection hw with hw
              subst hw
              refine ⟨hl.2, h1, by omega, m4, ?_, ?_⟩
              · intro j hj
                have hj : j = m := by omega
                subst hj
                unfold dirGet at m2
                cases hf : d'.find? (fun e => e.1 == nodeIndexName j) with
                | none => rw [hf] at m2; simp at m2
                | some e =>
                  rw [hf] at m2
                  simp only [Option.map_some, Option.some.injEq] at m2
                  have h3 := List.mem_of_find?_eq_some hf
                  have h4 := List.find?_some hf
                  simp only [beq_iff_eq] at h4
                  rw [← m2, ← h4]
                  exact h3
              · intro e he hi
                exact ⟨m, by omega, m3 e he hi⟩
            · cases hw
          · rw [if_neg e] at hw ⊢
            exact ih.fetched m j hm hw
        · intro m hm
          simp only [upd]
          by_cases e : m = n
          · rw [if_pos e]; split <;> simp
          · rw [if_neg e]; exact ih.alive m hm
        · intro hd
          simp only [upd] at hd
          simp only [putIndex]
          rw [if_neg (fun he => nodeIndexName_ne_index _ he.symm)]
          by_cases e : N - 1 = n
          · exact ih.early (by rw [e, hp]; simp)
          · rw [if_neg e] at hd
            exact ih.early hd
        · intro hd
          simp only [upd] at hd
          simp only [putIndex]
          rw [if_neg (fun he => nodeIndexName_ne_index _ he.symm)]
          by_cases e : N - 1 = n
          · rw [if_pos e, if_pos (by omega)] at hd; cases hd
          · rw [if_neg e] at hd
            exact ih.ends hd
      · have h1 : N = 1 := by omega
        have hn0 : n = 0 := by omega
        subst h1 hn0
        rw [nodeOutName_one] at m2 m3 ⊢
        have hz : ∀ m, m < 1 → m = 0 := by omega
        constructor
        · intro m hm hw; rw [hz m hm] at hw; simp [upd] at hw
        · intro m hm hw; rw [hz m hm] at hw; simp [upd] at hw
        · intro m hm hw
          rw [hz m hm, nodeOutName_one]
          simp [putIndex]
        · intro m hm; omega
        · intro m j hm hw; rw [hz m hm] at hw; simp [upd] at hw
        · intro m hm; rw [hz m hm]; simp [upd]
        · intro hd; simp [upd] at hd
        · intro _
          simp only [putIndex, if_true]
          rw [nodeOrder_ten 1 (by omega)]
          simp [List.range_succ]
    | mergeFail n d e hn hp hm =>
      rw [ih.cache n hn hp] at hm
      obtain ⟨d', m1, _⟩ := merge_node c (ws n) (cache0 n) (hdone n hn) (nodeRankArg N n) (hne n hn)
      rw [m1] at hm
      simp at hm
    | collect n j x hn hp hj hx =>
      obtain ⟨f1, f2, f3, f4⟩ := ih.fetched n j hn hp
      have hxj : x = ⟨inRankOrder (ws j), some c⟩ := by
        have hjN : j < N := by omega
        by_cases hw : s.phase j = .working
        · rw [ih.fresh j hjN hw] at hx; cases hx
        · have := ih.sent j hjN hw
          rw [nodeOutName_many N j f2, hx] at this
          injection this
      subst hxj
      constructor
      · intro m hm hw
        simp only [upd] at hw ⊢
        by_cases e : m = n
        · rw [if_pos e] at hw; cases hw
        · rw [if_neg e] at hw ⊢; exact ih.cache m hm hw
      · intro m hm hw
        simp only [upd] at hw
        by_cases e : m = n
        · rw [if_pos e] at hw; cases hw
        · rw [if_neg e] at hw; exact ih.fresh m hm hw
      · intro m hm hw
        simp only [upd] at hw
        by_cases e : m = n
        · subst e
          exact ih.sent m hm (by rw [hp]; simp)
        · rw [if_neg e] at hw; exact ih.sent m hm hw
      · intro m hm
        simp only [upd]
        rw [if_neg (by omega)]
        exact ih.others m hm
      · intro m i hm hw
        simp only [upd] at hw ⊢
        by_cases e : m = n
        · rw [if_pos e] at hw ⊢
          injection hw with hw
          subst hw
          refine ⟨by omega, f2, by omega, ?_⟩
          have := f4.write j
          refine ⟨this.names, fun i hi => this.index i (by omega), fun e he hi => ?_⟩
          obtain ⟨i, h1, h2⟩ := this.only e he hi
          exact ⟨i, by omega, h2⟩
        · rw [if_neg e] at hw ⊢; exact ih.fetched m i hm hw
      · intro m hm
        simp only [upd]
        by_cases e : m = n
        · rw [if_pos e]; simp
        · rw [if_neg e]; exact ih.alive m hm
      · intro hd
        simp only [upd] at hd
        exact ih.early (by rw [show N - 1 = n by omega, hp]; simp)
      · intro hd
        simp only [upd] at hd
        rw [if_pos (by omega)] at hd
        cases hd
    | missing n j hn hp hj hc hx => cases hc
    | finish n d x hn hp hm hx =>
      obtain ⟨f1, f2, f3, f4⟩ := ih.fetched n _ hn hp
      obtain ⟨d', m1, m2⟩ := merge_nodes c (fun n => inRankOrder (ws n)) N hN (s.cache n)
        ⟨f4.names, fun i hi => f4.index i (by omega), fun e he hi => by
          obtain ⟨i, h1, h2⟩ := f4.only e he hi
          exact ⟨i, by omega, h2⟩⟩
      rw [m1] at hm
      injection hm with _ hm
      subst hm
      rw [m2] at hx
      injection hx with hx
      injection hx with hx
      subst hx
      constructor
      · intro m hm hw
        simp only [upd] at hw ⊢
        by_cases e : m = n
        · rw [if_pos e] at hw; cases hw
        · rw [if_neg e] at hw ⊢; exact ih.cache m hm hw
      · intro m hm hw
        simp only [upd] at hw
        simp only [putIndex]
        rw [if_neg (nodeIndexName_ne_index _)]
        by_cases e : m = n
        · rw [if_pos e] at hw; cases hw
        · rw [if_neg e] at hw; exact ih.fresh m hm hw
      · intro m hm hw
        simp only [upd] at hw
        simp only [putIndex]
        rw [nodeOutName_many N m f2, if_neg (nodeIndexName_ne_index _)]
        rw [← nodeOutName_many N m f2]
        by_cases e : m = n
        · subst e
          exact ih.sent m hm (by rw [hp]; simp)
        · rw [if_neg e] at hw; exact ih.sent m hm hw
      · intro m hm
        simp only [upd]
        rw [if_neg (by omega)]
        exact ih.others m hm
      · intro m i hm hw
        simp only [upd] at hw ⊢
        by_cases e : m = n
        · rw [if_pos e] at hw; cases hw
        · rw [if_neg e] at hw ⊢; exact ih.fetched m i hm hw
      · intro m hm
        simp only [upd]
        by_cases e : m = n
        · rw [if_pos e]; simp
        · rw [if_neg e]; exact ih.alive m hm
      · intro hd
        simp only [upd] at hd
        rw [if_pos (by omega)] at hd
        exact absurd rfl hd
      · intro _
        simp only [putIndex, if_true]
    | finishFail n d e hn hp hm =>
      obtain ⟨f1, f2, f3, f4⟩ := ih.fetched n _ hn hp
      obtain ⟨d', m1, m2⟩ := merge_nodes c (fun n => inRankOrder (ws n)) N hN (s.cache n)
        ⟨f4.names, fun i hi => f4.index i (by omega), fun e he hi => by
          obtain ⟨i, h1, h2⟩ := f4.only e he hi
          exact ⟨i, by omega, h2⟩⟩
      rw [m1] at hm
      simp at hm

/-- The steps a node can still take. -/
def nodeLeft (N n : Nat) : NodePhase → Nat
  | .working => if n + 1 = N then N + 1 else 1
  | .collecting k => N - k
  | .done => 0
  | .failed => 0

theorem nodes_bound {C : Type} [DecidableEq C] (cloud : Bool) (N : Nat) (existing : Option (IndexData C)) (out0 : String → Option (IndexData C))
    (cache0 : Nat → CacheDir C) (k : Nat) (s : NodesWorld C) (h : NodesReach cloud N existing out0 cache0 k s) :
    k + ((List.range N).map fun n => nodeLeft N n (s.phase n)).sum ≤ 2 * N ∧ ∀ n j, n < N → s.phase n = .collecting j → n + 1 = N ∧ j ≤ N - 1 := by
  have hupd : ∀ (p : Nat → NodePhase) n a, (fun m => nodeLeft N m (upd p n a m)) = upd (fun m => nodeLeft N m (p m)) n (nodeLeft N n a) := by
    intro p n a
    funext m
    simp only [upd]
    by_cases e : m = n
    · rw [if_pos e, if_pos e, e]
    · rw [if_neg e, if_neg e]
  induction h with
  | start =>
    refine ⟨?_, fun _ _ _ h => by cases h⟩
    have : ∀ m, m ≤ N → ((List.range m).map fun n => nodeLeft N n .working).sum = m + if m = N ∧ 0 < N then N else 0 := by
      intro m
      induction m with
      | zero => intro hm; simp; omega
      | succ m ih =>
        intro hm
        rw [List.range_succ, List.map_append, List.sum_append, ih (by omega)]
        simp only [List.map_cons, List.map_nil, List.sum_cons, List.sum_nil, nodeLeft]
        (repeat' split) <;> omega
    have := this N (Nat.le_refl _)
    simp only at this ⊢
    split at this <;> omega
  | @step s s' k _ hs ih =>
    have key : ∀ n a, n < N → nodeLeft N n a < nodeLeft N n (s.phase n) → (∀ j, a = .collecting j → n + 1 = N ∧ j ≤ N - 1) →
        k + 1 + ((List.range N).map fun m => nodeLeft N m (upd s.phase n a m)).sum ≤ 2 * N ∧
          ∀ m j, m < N → upd s.phase n a m = .collecting j → m + 1 = N ∧ j ≤ N - 1 := by
      intro n a hn hlt hc
      rw [hupd]
      have := sum_upd N (fun m => nodeLeft N m (s.phase m)) n (nodeLeft N n a) hn
      refine ⟨by omega, ?_⟩
      intro m j hm hw
      simp only [upd] at hw
      by_cases e : m = n
      · rw [if_pos e] at hw; rw [e]; exact hc j hw
      · rw [if_neg e] at hw; exact ih.2 m j hm hw
    cases hs with
    | merge n d x hn hp hm hx =>
      apply key n _ hn
      · rw [hp]
        by_cases e : 1 < N ∧ n + 1 = N
        · rw [if_pos e]
          simp only [nodeLeft]
          rw [if_pos e.2]
          omega
        · rw [if_neg e]
          simp only [nodeLeft]
          split <;> omega
      · intro j hj
        split at hj
        · injection hj with hj
          omega
        · cases hj
    | mergeFail n d e hn hp hm =>
      apply key n _ hn
      · rw [hp]; simp only [nodeLeft]; split <;> omega
      · intro j hj; cases hj
    | collect n j x hn hp hj hx =>
      apply key n _ hn
      · rw [hp]; simp only [nodeLeft]; omega
      · intro i hi
        injection hi with hi
        have := (ih.2 n j hn hp).1
        omega
    | missing n j hn hp hj hc hx =>
      apply key n _ hn
      · rw [hp]; simp only [nodeLeft]; omega
      · intro j hj; cases hj
    | finish n d x hn hp hm hx =>
      apply key n _ hn
      · rw [hp]; simp only [nodeLeft]; omega
      · intro j hj; cases hj
    | finishFail n d e hn hp hm =>
      apply key n _ hn
      · rw [hp]; simp only [nodeLeft]; omega
      · intro j hj; cases hj


/-- **C63.** `optimize` on any number of nodes with a bucket as output that has no left-over indexes of nodes, where the workers of each node have
written at least one chunk: in whatever order the nodes go on, no node ever fails, at most `2 * nodes` steps are taken, and while something
is missing some node can go on. Before the last node has returned, `index.json` is as it was. Once it has returned, `index.json` lists the
chunks of all workers of all nodes, each once, node by node in the order of the text of the node numbers. -/
theorem c63_index {C : Type} [DecidableEq C] (c : C) (N : Nat) (hN : 0 < N) (ws : Nat → List (List ChunkInfo)) (out0 : String → Option (IndexData C))
    (cache0 : Nat → CacheDir C) (hdone : ∀ n, n < N → WorkersDone c (ws n) (cache0 n)) (hne : ∀ n, n < N → (ws n).flatten ≠ [])
    (hout : ∀ n, n < N → out0 (nodeIndexName n) = none) (k : Nat) (s : NodesWorld C) (h : NodesReach true N none out0 cache0 k s) :
    k ≤ 2 * N ∧ (∀ n, n < N → s.phase n ≠ .failed) ∧
    ((∀ s', ¬ NodeStep true N none s s') → ∀ n, n < N → s.phase n = .done) ∧
    (s.phase (N - 1) ≠ .done → s.out "index.json" = out0 "index.json") ∧
    (s.phase (N - 1) = .done → s.out "index.json" = some ⟨(nodeOrder N).flatMap fun n => inRankOrder (ws n), some c⟩) := by
  have hi := nodesInv_reach c N hN ws out0 cache0 hdone hne hout k s h
  refine ⟨by have := (nodes_bound _ _ _ _ _ _ _ h).1; omega, hi.alive, ?_, hi.early, hi.ends⟩
  intro hstuck
  have hnw : ∀ n, n < N → s.phase n ≠ .working := by
    intro n hn hw
    obtain ⟨d, m1, m2, _⟩ := merge_node c (ws n) (cache0 n) (hdone n hn) (nodeRankArg N n) (hne n hn)
    rw [← hi.cache n hn hw] at m1
    rw [mergedName_arg] at m2
    exact hstuck _ (.merge s n d _ hn hw m1 m2)
  intro n hn
  cases hp : s.phase n with
  | working => exact absurd hp (hnw n hn)
  | failed => exact absurd hp (hi.alive n hn)
  | done => rfl
  | collecting j =>
    exfalso
    obtain ⟨f1, f2, f3, f4⟩ := hi.fetched n j hn hp
    by_cases e : j < N - 1
    · have := hi.sent j (by omega) (hnw j (by omega))
      rw [nodeOutName_many N j f2] at this
      exact hstuck _ (.collect s n j _ hn hp e this)
    · have e : j = N - 1 := by omega
      subst e
      obtain ⟨d', m1, m2⟩ := merge_nodes c (fun n => inRankOrder (ws n)) N hN (s.cache n)
        ⟨f4.names, fun i hi => f4.index i (by omega), fun e he hi => by
          obtain ⟨i, h1, h2⟩ := f4.only e he hi
          exact ⟨i, by omega, h2⟩⟩
      exact hstuck _ (.finish s n d' _ hn hp m1 m2)

/-- The chunks of all nodes: up to their order those of the nodes one after the other, and with at most ten workers in all in their order. -/
theorem c63_all_chunks (N : Nat) (ws : Nat → List (List ChunkInfo)) :
    ((nodeOrder N).flatMap fun n => inRankOrder (ws n)).Perm ((List.range N).flatMap fun n => (ws n).flatten) ∧
    (N ≤ 10 → (∀ n, n < N → (ws n).length ≤ 10) → ((nodeOrder N).flatMap fun n => inRankOrder (ws n)) = (List.range N).flatMap fun n => (ws n).flatten) := by
  constructor
  · refine ((nodeOrder_perm N).flatMap_right _).trans ?_
    generalize List.range N = l
    induction l with
    | nil => exact List.Perm.refl _
    | cons n l ih =>
      rw [List.flatMap_cons, List.flatMap_cons]
      exact (inRankOrder_perm _).append ih
  · intro h10 hw
    rw [nodeOrder_ten N h10, List.flatMap_def, List.flatMap_def]
    congr 1
    apply List.map_congr_left
    intro n hn
    exact inRankOrder_ten _ (hw n (List.mem_range.1 hn))

/-- **In a folder the last node does not wait**: if the output directory is a folder and the last of several nodes is ready first, it
fails, and there is no `index.json`. -/
theorem c63_folder_last_first {C : Type} [DecidableEq C] (c : C) (N : Nat) (hN : 1 < N) (ws : Nat → List (List ChunkInfo)) (out0 : String → Option (IndexData C))
    (cache0 : Nat → CacheDir C) (hdone : WorkersDone c (ws (N - 1)) (cache0 (N - 1))) (hne : (ws (N - 1)).flatten ≠ [])
    (hout : out0 (nodeIndexName 0) = none) (hidx : out0 "index.json" = none) :
    ∃ s, NodesReach false N none out0 cache0 2 s ∧ s.phase (N - 1) = .failed ∧ s.out "index.json" = none := by
  obtain ⟨d, m1, m2, _⟩ := merge_node c (ws (N - 1)) (cache0 (N - 1)) hdone (nodeRankArg N (N - 1)) hne
  rw [mergedName_arg] at m2
  have s1 := NodesReach.start.step (NodeStep.merge (cloud := false) (nodes := N) (existing := none) ⟨out0, cache0, fun _ => .working⟩ (N - 1) d _ (by omega) rfl m1 m2)
  rw [if_pos ⟨hN, by omega⟩, nodeOutName_many N _ hN] at s1
  refine ⟨_, s1.step (.missing _ (N - 1) 0 (by omega) (by simp [upd]) (by omega) rfl ?_), by simp [upd], ?_⟩
  · simp only [putIndex]
    rw [if_neg (fun e => by have := nodeIndexName_inj _ _ e; omega), hout]
  · simp only [putIndex]
    rw [if_neg (fun e => nodeIndexName_ne_index _ e.symm), hidx]

/-- **Nothing removes the indexes of nodes from a folder**: whatever the mode, `{n}-index.json` in the output folder survives the clearing at the
start of `optimize`. -/
theorem c63_folder_keeps_node_index (d : List String) (mode : OptMode) (ck : Bool) (fs : LocalFs) (n : Nat) (x : Bytes)
    (h : (d ++ [nodeIndexName n], x) ∈ fs) : (d ++ [nodeIndexName n], x) ∈ (assertDirLocal d mode ck fs).2 := by
  refine (assertDirLocal_spec d mode ck fs).2 _ h ?_
  rintro (hd | ⟨m, hm, hd⟩ | ⟨rest, hd⟩)
  · have := List.append_cancel_left hd
    simp only [List.cons.injEq, and_true] at this
    exact nodeIndexName_ne_index _ this
  · have := List.append_cancel_left hd
    simp only [List.cons.injEq, and_true] at this
    subst this
    have h1 : ".bin".toList <:+ (nodeIndexName n).toList := List.isSuffixOf_iff_suffix.1 hm
    have h2 : "index.json".toList <:+ (nodeIndexName n).toList := List.isSuffixOf_iff_suffix.1 (isIndexName_node n)
    have h3 := List.suffix_of_suffix_length_le h1 h2 (by decide)
    exact absurd h3 (by decide)
  · have := List.append_cancel_left hd
    simp only [List.cons.injEq] at this
    have h1 := congrArg String.toList this.1
    have h2 : "index.json".toList <:+ (nodeIndexName n).toList := List.isSuffixOf_iff_suffix.1 (isIndexName_node n)
    rw [h1] at h2
    exact absurd h2 (by decide)

/-- **A node that starts late is refused**: with `mode=None`, once another node has uploaded anything to the bucket, `optimize` raises on this node
(whatever is there counts as an index). -/
theorem c63_late_node_refused (st : ObjStore) (path name : List Char) (ck : Bool) (b : Bucket) (x : Bytes)
    (h1 : path.head? ≠ some '/') (h2 : path.getLast? ≠ some '/') (h : (path ++ '/' :: name, x) ∈ b) :
    assertDirRemote st path .none ck false b = (.error .runtimeError, b) := by
  have he : st.isEmpty b path = false := by
    have hl : lstripSlash path = path := by
      unfold lstripSlash
      cases path with
      | nil => rfl
      | cons c p =>
        rw [List.dropWhile_cons, if_neg]
        intro hc
        apply h1
        simpa using hc
    unfold ObjStore.isEmpty
    cases st with
    | s3 =>
      simp only [Bool.not_eq_false', List.any_eq_true]
      refine ⟨_, h, ?_⟩
      rw [hl, rstripSlash_eq h2, List.isPrefixOf_iff_prefix]
      exact ⟨name, by simp⟩
    | gcp =>
      simp only [Bool.not_eq_false', List.any_eq_true]
      exact ⟨_, h, List.isPrefixOf_iff_prefix.2 (List.prefix_append _ _)⟩
  simp [assertDirRemote, he, hasIndexFile, ObjStore.exists]

/-- **A node that starts late removes the chunks of the others**: with `mode="overwrite"`, every object that another node has already uploaded (up to
1000 objects in S3) is removed. -/
theorem c63_late_node_removes (st : ObjStore) (path name : List Char) (ck refuse : Bool) (b : Bucket) (x : Bytes)
    (hn : st = .s3 → (b.filter fun o => path.isPrefixOf o.1).length ≤ 1000) (hne : st.isEmpty b path = false) :
    (assertDirRemote st path .overwrite ck refuse b).1 = .ok () ∧ (path ++ '/' :: name, x) ∉ (assertDirRemote st path .overwrite ck refuse b).2 := by
  obtain ⟨h1, h2⟩ := c36_remote_overwrite_clears st path ck refuse b hn hne
  exact ⟨h1, fun h => h2 _ h (List.prefix_append _ _)⟩

/-- **A left-over index of a node is taken for a new one**: after an earlier run on two nodes the output folder still has `0-index.json`
(`c63_folder_keeps_node_index`). If the last node is ready first, it neither waits nor fails, and `index.json` lists the chunks of the earlier run in place of
those of node 0. -/
theorem c63_stale_index {C : Type} [DecidableEq C] (cloud : Bool) (c : C) (ws : List (List ChunkInfo)) (out0 : String → Option (IndexData C)) (cache0 : Nat → CacheDir C)
    (hdone : WorkersDone c ws (cache0 1)) (hne : ws.flatten ≠ []) (old : List ChunkInfo) (hold : out0 (nodeIndexName 0) = some ⟨old, some c⟩) :
    ∃ s, NodesReach cloud 2 none out0 cache0 3 s ∧ s.phase 1 = .done ∧ s.phase 0 = .working ∧
      s.out "index.json" = some ⟨old ++ inRankOrder ws, some c⟩ := by
  obtain ⟨d, m1, m2, m3, m4⟩ := merge_node c ws (cache0 1) hdone (nodeRankArg 2 1) hne
  rw [mergedName_arg] at m2 m3
  have s1 := NodesReach.start.step (NodeStep.merge (cloud := cloud) (nodes := 2) (existing := none) ⟨out0, cache0, fun _ => .working⟩ 1 d _ (by omega) rfl m1 m2)
  rw [if_pos ⟨by omega, rfl⟩, nodeOutName_many 2 1 (by omega)] at s1
  rw [nodeOutName_many 2 1 (by omega)] at m2 m3
  have s2 := s1.step (.collect _ 1 0 ⟨old, some c⟩ (by omega) (by simp [upd]) (by omega) (by
    simp only [putIndex]
    rw [if_neg (fun e => by have := nodeIndexName_inj _ _ e; omega), hold]))
  have hd : HoldsNodes (fun n => ⟨if n = 0 then old else inRankOrder ws, some c⟩) (· = 1) d := by
    refine ⟨m4, ?_, fun e he hi => ⟨1, rfl, m3 e he hi⟩⟩
    intro j hj
    subst hj
    unfold dirGet at m2
    cases hf : d.find? (fun e => e.1 == nodeIndexName 1) with
    | none => rw [hf] at m2; simp at m2
    | some e =>
      rw [hf] at m2
      simp only [Option.map_some, Option.some.injEq] at m2
      have h3 := List.mem_of_find?_eq_some hf
      have h4 := List.find?_some hf
      simp only [beq_iff_eq] at h4
      rw [if_neg (by decide), ← m2, ← h4]
      exact h3
  have hd2 := hd.write 0
  obtain ⟨d', q1, q2⟩ := merge_nodes c (fun n => if n = 0 then old else inRankOrder ws) 2 (by omega) (dirWrite d (nodeIndexName 0) (.index ⟨old, some c⟩))
    ⟨hd2.names, fun i hi => hd2.index i (by omega), fun e he hi => by
      obtain ⟨i, h1, h2⟩ := hd2.only e he hi
      exact ⟨i, by omega, h2⟩⟩
  rw [nodeOrder_ten 2 (by omega)] at q2
  refine ⟨_, s2.step (.finish _ 1 d' _ (by omega) (by simp [upd]) (by simpa [upd] using q1) q2), by simp [upd], by simp [upd], ?_⟩
  simp [putIndex, List.range_succ]

/-- **A node without chunks spoils the run**: with two nodes of which the second has no chunks, no execution writes `index.json`. -/
theorem c63_empty_node {C : Type} [DecidableEq C] (c : C) (ws : List (List ChunkInfo)) (out0 : String → Option (IndexData C)) (cache0 : Nat → CacheDir C)
    (hdone : WorkersDone c ws (cache0 0)) (hne : ws.flatten ≠ []) (hempty : cache0 1 = []) (hout : ∀ n, n < 2 → out0 (nodeIndexName n) = none)
    (k : Nat) (s : NodesWorld C) (h : NodesReach true 2 none out0 cache0 k s) :
    s.phase 1 ≠ .done ∧ s.out "index.json" = out0 "index.json" := by
  have he : mergeNoWait (some 1) none ([] : CacheDir C) = (.ok (), [(nodeIndexName 1, .index ⟨[], none⟩)]) := rfl
  obtain ⟨d, m1, m2, m3, m4⟩ := merge_node c ws (cache0 0) hdone (nodeRankArg 2 0) hne
  rw [mergedName_arg, nodeOutName_many 2 0 (by omega)] at m2
  have hfin : ∃ d', mergeNoWait none none ([(nodeIndexName 1, .index ⟨[], none⟩), (nodeIndexName 0, .index ⟨inRankOrder ws, some c⟩)] : CacheDir C) =
      (.error .exception, d') := by
    refine ⟨[(nodeIndexName 1, .index ⟨[], none⟩)], ?_⟩
    have e : sortBy strLe ((([(nodeIndexName 1, .index ⟨[], none⟩), (nodeIndexName 0, .index ⟨inRankOrder ws, some c⟩)] : CacheDir C).map (·.1)).filter isIndexName)
        = [nodeIndexName 0, nodeIndexName 1] := by
      simp only [List.map_cons, List.map_nil]
      decide +kernel
    unfold mergeNoWait
    rw [e]
    have e1 : (nodeIndexName 1 == nodeIndexName 0) = false := by decide +kernel
    have e2 : (nodeIndexName 1 != nodeIndexName 0) = true := by decide +kernel
    simp [mergeLoop, dirGet, dirRemove, e1, e2]
  obtain ⟨d2, hfin⟩ := hfin
  have inv : (s.phase 0 = .working → s.cache 0 = cache0 0 ∧ s.out (nodeIndexName 0) = none) ∧
      (s.phase 0 ≠ .working → s.out (nodeIndexName 0) = some ⟨inRankOrder ws, some c⟩) ∧
      (s.phase 0 = .working ∨ s.phase 0 = .done) ∧ s.out "index.json" = out0 "index.json" ∧
      (s.phase 1 = .working ∧ s.cache 1 = [] ∨
       s.phase 1 = .collecting 0 ∧ s.cache 1 = [(nodeIndexName 1, .index ⟨[], none⟩)] ∨
       s.phase 1 = .collecting 1 ∧ s.cache 1 = [(nodeIndexName 1, .index ⟨[], none⟩), (nodeIndexName 0, .index ⟨inRankOrder ws, some c⟩)] ∨
       s.phase 1 = .failed) := by
    have e01 : nodeIndexName 0 ≠ nodeIndexName 1 := fun e => by have := nodeIndexName_inj _ _ e; omega
    induction h with
    | start => exact ⟨fun _ => ⟨rfl, hout 0 (by omega)⟩, fun h => absurd rfl h, Or.inl rfl, rfl, Or.inl ⟨rfl, hempty⟩⟩
    | @step s s' k _ hs ih =>
      obtain ⟨i1, i2, i3, i4, i5⟩ := ih
      cases hs with
      | merge n d' x hn hp hm hx =>
        rw [nodeOutName_many 2 n (by omega)] at hx ⊢
        have hr : nodeRankArg 2 n = some n := rfl
        rw [hr] at hm
        by_cases e : n = 0
        · subst e
          rw [(i1 hp).1] at hm
          rw [show nodeRankArg 2 0 = some 0 from rfl, hm] at m1
          injection m1 with _ m1
          subst m1
          rw [m2] at hx
          injection hx with hx
          injection hx with hx
          subst hx
          refine ⟨?_, ?_, ?_, ?_, ?_⟩
          · intro h; simp [upd] at h
          · intro _; simp [putIndex]
          · simp [upd]
          · simp only [putIndex]
            rw [if_neg (fun e => nodeIndexName_ne_index _ e.symm), i4]
          · simpa [upd] using i5
        · have e : n = 1 := by omega
          subst e
          have hc : s.cache 1 = [] := by
            rcases i5 with h | h | h | h
            · exact h.2
            · rw [hp] at h; cases h.1
            · rw [hp] at h; cases h.1
            · rw [hp] at h; cases h
          rw [hc, he] at hm
          injection hm with _ hm
          subst hm
          refine ⟨?_, ?_, ?_, ?_, ?_⟩
          · intro h
            have h : s.phase 0 = .working := by simpa [upd] using h
            refine ⟨by simpa [upd] using (i1 h).1, ?_⟩
            simp only [putIndex]
            rw [if_neg e01]
            exact (i1 h).2
          · intro h
            have h : s.phase 0 ≠ .working := by simpa [upd] using h
            simp only [putIndex]
            rw [if_neg e01]
            exact i2 h
          · simpa [upd] using i3
          · simp only [putIndex]
            rw [if_neg (fun e => nodeIndexName_ne_index _ e.symm), i4]
          · right; left; simp [upd]
      | mergeFail n d' e hn hp hm =>
        have hr : nodeRankArg 2 n = some n := rfl
        rw [hr] at hm
        exfalso
        by_cases e : n = 0
        · subst e
          rw [(i1 hp).1] at hm
          rw [show nodeRankArg 2 0 = some 0 from rfl, hm] at m1
          simp at m1
        · have e : n = 1 := by omega
          subst e
          have hc : s.cache 1 = [] := by
            rcases i5 with h | h | h | h
            · exact h.2
            · rw [hp] at h; cases h.1
            · rw [hp] at h; cases h.1
            · rw [hp] at h; cases h
          rw [hc, he] at hm
          simp at hm
      | collect n j x hn hp hj hx =>
        have e : n = 1 := by
          have : n ≠ 0 := by
            intro e; subst e
            rcases i3 with h | h <;> rw [hp] at h <;> cases h
          omega
        subst e
        have hj : j = 0 := by omega
        subst hj
        have hx' : x = ⟨inRankOrder ws, some c⟩ := by
          by_cases h : s.phase 0 = .working
          · rw [(i1 h).2] at hx; cases hx
          · rw [i2 h] at hx; injection hx with hx; exact hx.symm
        subst hx'
        have hc : s.cache 1 = [(nodeIndexName 1, .index ⟨[], none⟩)] := by
          rcases i5 with h | h | h | h
          · rw [hp] at h; cases h.1
          · exact h.2
          · rw [hp] at h; cases h.1
          · rw [hp] at h; cases h
        refine ⟨by simpa [upd] using i1, by simpa [upd] using i2, by simpa [upd] using i3, i4, ?_⟩
        right; right; left
        have e1 : (nodeIndexName 1 != nodeIndexName 0) = true := by decide +kernel
        simp only [upd, if_true, hc, dirWrite, dirRemove]
        rw [List.filter_cons, if_pos e1]
        exact ⟨trivial, rfl⟩
      | missing n j hn hp hj hc hx => cases hc
      | finish n d' x hn hp hm hx =>
        exfalso
        have e : n = 1 := by
          have : n ≠ 0 := by
            intro e; subst e
            rcases i3 with h | h <;> rw [hp] at h <;> cases h
          omega
        subst e
        have hc : s.cache 1 = [(nodeIndexName 1, .index ⟨[], none⟩), (nodeIndexName 0, .index ⟨inRankOrder ws, some c⟩)] := by
          rcases i5 with h | h | h | h
          · rw [hp] at h; cases h.1
          · rw [hp] at h; cases h.1
          · exact h.2
          · rw [hp] at h; cases h
        rw [hc, hfin] at hm
        simp at hm
      | finishFail n d' e hn hp hm =>
        have e : n = 1 := by
          have : n ≠ 0 := by
            intro e; subst e
            rcases i3 with h | h <;> rw [hp] at h <;> cases h
          omega
        subst e
        refine ⟨by simpa [upd] using i1, by simpa [upd] using i2, by simpa [upd] using i3, i4, ?_⟩
        right; right; right
        simp [upd]
  obtain ⟨_, _, _, i4, i5⟩ := inv
  refine ⟨?_, i4⟩
  rcases i5 with h | h | h | h
  · rw [h.1]; simp
  · rw [h.1]; simp
  · rw [h.1]; simp
  · rw [h]; simp

/-- **The result that is reported.** For chunks of samples without dimensions, `size` is the number of samples and `num_bytes` the sum of the
chunk sizes in bytes; but `num_bytes_per_chunk` lists the number of samples of each chunk, not its bytes. -/
theorem c63_result (chunks : List ChunkInfo) (hd : ∀ c ∈ chunks, c.dim = none) :
    (optResult chunks).size = (chunks.map (·.chunkSize)).sum ∧ (optResult chunks).numBytes = (chunks.map (·.chunkBytes)).sum ∧
    (optResult chunks).numChunks = chunks.length ∧ (chunks.length < 1024 → (optResult chunks).numBytesPerChunk = chunks.map (·.chunkSize)) := by
  refine ⟨?_, rfl, rfl, ?_⟩
  · unfold optResult
    dsimp only
    congr 1
    apply List.map_congr_left
    intro c hc
    rw [hd c hc]
  · intro h
    unfold optResult
    dsimp only
    rw [if_pos h]

/-- **The size with dimensions** (tokens): a chunk that has a dimension counts it, and one without counts its samples; the sizes of two lists of
chunks add up. -/
theorem c63_result_dims (a b : List ChunkInfo) (f : String) (n m d : Nat) :
    (optResult (a ++ b)).size = (optResult a).size + (optResult b).size ∧ (optResult [⟨f, n, m, some d⟩]).size = d ∧
    (optResult [⟨f, n, m, none⟩]).size = n := by
  refine ⟨?_, ?_, ?_⟩
  · simp only [optResult, List.map_append, List.sum_append]
  · simp only [optResult, List.map_cons, List.map_nil, List.sum_cons, List.sum_nil, Nat.add_zero]
  · simp only [optResult, List.map_cons, List.map_nil, List.sum_cons, List.sum_nil, Nat.add_zero]

/-- **`num_bytes_per_chunk` is wrong** for a chunk of 5 samples in 900 bytes. -/
theorem c63_result_bytes_wrong : (optResult [⟨"chunk-0-0.bin", 5, 900, none⟩]).numBytes = 900 ∧
    (optResult [⟨"chunk-0-0.bin", 5, 900, none⟩]).numBytesPerChunk = [5] := by decide

/-- Three nodes with one worker each: the hypotheses of `c63_index` can be met. -/
example : ∃ (cache0 : Nat → CacheDir Nat) (ws : Nat → List (List ChunkInfo)), (∀ n, n < 3 → WorkersDone 7 (ws n) (cache0 n)) ∧
    (∀ n, n < 3 → (ws n).flatten ≠ []) := by
  refine ⟨fun n => [(chunkFilename none n 0, .data [1]), (rankIndexName n, .index ⟨[⟨chunkFilename none n 0, 5, 9, none⟩], some 7⟩)],
    fun n => List.replicate n [] ++ [[⟨chunkFilename none n 0, 5, 9, none⟩]], ?_, ?_⟩
  · intro n _
    refine ⟨?_, ?_, ?_⟩
    · have : chunkFilename none n 0 ≠ rankIndexName n := by
        intro e
        have := isIndexName_rank n
        rw [← e, isIndexName_chunk] at this
        cases this
      simpa using this
    · intro r cs hr hne
      rw [List.getElem?_append] at hr
      split at hr
      · rename_i hlt
        simp only [List.length_replicate] at hlt
        simp only [List.getElem?_replicate, if_pos hlt, Option.some.injEq] at hr
        exact absurd hr.symm hne
      · rename_i hge
        simp only [List.length_replicate] at hge hr
        by_cases e : r = n
        · subst e
          simp only [Nat.sub_self, List.getElem?_cons_zero, Option.some.injEq] at hr
          subst hr
          simp
        · rw [List.getElem?_eq_none (by simp; omega)] at hr
          cases hr
    · intro e he hi
      simp only [List.mem_cons, List.not_mem_nil, or_false] at he
      rcases he with he | he
      · rw [he, isIndexName_chunk] at hi; cases hi
      · exact ⟨n, _, by rw [List.getElem?_append_right (by simp)]; simp; rfl, by simp, by rw [he]⟩
  · intro n _; simp

end LitData.Props
