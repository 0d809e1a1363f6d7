import Verif.Props.SkipDelete

/-! C38, continued: what a worker is told when it starts to iterate. -/

namespace LitData.Props

open LitData

theorem lookup_of_mem_nat {β : Type} (d : List (Nat × β)) (hn : (d.map (·.1)).Nodup) {k : Nat} {v : β} (h : (k, v) ∈ d) : d.lookup k = some v := by
  induction d with
  | nil => cases h
  | cons e d ih =>
    rw [List.map_cons, List.nodup_cons] at hn
    rw [List.lookup_cons]
    rcases List.mem_cons.1 h with rfl | h
    · simp
    · have : (k == e.1) = false := by
        rw [beq_eq_false_iff_ne]
        rintro rfl
        exact hn.1 (List.mem_map.2 ⟨_, h, rfl⟩)
      rw [this]
      exact ih hn.2 h

theorem mem_of_lookup_nat {β : Type} (d : List (Nat × β)) {k : Nat} {v : β} (h : d.lookup k = some v) : (k, v) ∈ d := by
  induction d with
  | nil => cases h
  | cons e d ih =>
    rw [List.lookup_cons] at h
    split at h
    · next heq =>
      have := (beq_iff_eq.1 heq)
      injection h with h
      subst h
      subst this
      simp
    · exact List.mem_cons_of_mem _ (ih h)

/-- **C38, from the start of an epoch.** On a single node the workers of all ranks compute the same map. Of the workers that read a chunk exactly one
may delete it, if there are two or more; a chunk that only one worker reads may be deleted by it. -/
theorem c38_iterate (R nw bs : Nat) (ws : List WorkLeft) (hR : 0 < R) (hnw : 0 < nw) (hbs : 0 < bs) (hlen : ws.length = R * nw) (fuel : Nat)
    (hf : enoughFuel nw ws ≤ fuel) :
    ∃ skip : Nat → Option (List Nat),
      (∀ rank worker, rank < R → worker < nw → iterSkipList false R 1 rank nw worker bs fuel ws = some (.ok (skip (rank * nw + worker)))) ∧
      ∀ c, (∃ w, ReadsChunk ws w c) → ∃ w, ReadsChunk ws w c ∧ mayDelete (skip w) c = true ∧
        ∀ w', ReadsChunk ws w' c → mayDelete (skip w') c = true → w' = w := by
  obtain ⟨m, h1, h2, h3, h4⟩ := c38_one_deleter nw bs R ws hnw hbs hlen fuel hf
  refine ⟨fun w => (chunksToKeep m).lookup w, ?_, ?_⟩
  · intro rank worker hr hw
    have hs : nodeSlice R 1 rank nw ws = ws := by
      have := c38_node_slice_partial R 1 rank nw ws hR (by decide) (.inr hr)
      rw [Nat.mul_one] at this
      rw [this, Nat.div_eq_of_lt hr, ← hlen]
      simp
    unfold iterSkipList
    rw [if_neg (by decide), Nat.div_one, if_neg (by omega), hs, h1, Nat.mod_eq_of_lt hr]
  · have hkeep : ∀ w c, mayDelete ((chunksToKeep m).lookup w) c = false ↔ ∃ ks, (c, ks) ∈ m ∧ w ∈ ks := by
      intro w c
      rw [← c38_keep_lists]
      have hn : ((chunksToKeep m).map (·.1)).Nodup := (dictOfPairs_spec _).nodup
      constructor
      · intro h
        cases hl : (chunksToKeep m).lookup w with
        | none => rw [hl] at h; cases h
        | some l =>
          rw [hl] at h
          exact ⟨l, mem_of_lookup_nat _ hl, by simpa [mayDelete] using h⟩
      · rintro ⟨cs, g1, g2⟩
        rw [lookup_of_mem_nat _ hn g1]
        simpa [mayDelete] using g2
    intro c ⟨w0, hw0⟩
    by_cases hm : ∃ ks, (c, ks) ∈ m
    · obtain ⟨ks, hm⟩ := hm
      obtain ⟨w, g1, g2⟩ := h4 c ks hm
      have huniq : ∀ ks', (c, ks') ∈ m → ks' = ks := by
        intro ks' h'
        have a := lookup_of_mem_nat m h2 h'
        rw [lookup_of_mem_nat m h2 hm] at a
        exact (Option.some.inj a).symm
      refine ⟨w, g1, ?_, ?_⟩
      · cases hd : mayDelete ((chunksToKeep m).lookup w) c with
        | true => rfl
        | false =>
          obtain ⟨ks', a, b⟩ := (hkeep w c).1 hd
          rw [huniq ks' a] at b
          exact absurd rfl ((g2 w).1 b).2
      · intro w' hr hd
        by_cases he : w' = w
        · exact he
        · have := (hkeep w' c).2 ⟨ks, hm, (g2 w').2 ⟨hr, he⟩⟩
          rw [this] at hd
          cases hd
    · refine ⟨w0, hw0, ?_, ?_⟩
      · cases hd : mayDelete ((chunksToKeep m).lookup w0) c with
        | true => rfl
        | false =>
          obtain ⟨ks', a, _⟩ := (hkeep w0 c).1 hd
          exact absurd ⟨ks', a⟩ hm
      · intro w' hr _
        by_cases he : w' = w0
        · exact he
        · exact absurd (h3 c w' w0 he hr hw0) hm

/-- A chunk that two of four workers read; one of them may delete it. -/
example : iterSkipList false 2 1 0 2 0 1 100 [[(0, 1)], [(0, 1)], [(1, 2)], []] = some (.ok (some [0])) ∧
    iterSkipList false 2 1 0 2 1 1 100 [[(0, 1)], [(0, 1)], [(1, 2)], []] = some (.ok none) := by decide +kernel

/-- **C38, after a restart** nothing is computed: every worker may delete every chunk, although others still read it. -/
theorem c38_resumed (world nodes rank nw worker bs fuel : Nat) (ws : List WorkLeft) :
    ∃ skip, iterSkipList true world nodes rank nw worker bs fuel ws = some (.ok skip) ∧ ∀ c, mayDelete skip c = true :=
  ⟨none, rfl, fun _ => rfl⟩

/-- **C38, the lists have no effect.** A worker that is told to keep a chunk removes it all the same, as soon as the counter file says that nobody
uses it. -/
theorem c38_ignored : ∃ (skip : Option (List Nat)) (c : Nat), mayDelete skip c = false ∧ applyDeletes skip 0 c = true ∧
    ∀ skip' locks c', applyDeletes skip' locks c' = decide (locks = 0) :=
  ⟨some [3], 3, rfl, rfl, fun _ locks _ => by cases locks <;> rfl⟩

end LitData.Props
