import Verif.Lemmas.NumpyItems

/-! Property C69: the inputs that the workers call the user's function with are the inputs that the user gave. -/

namespace LitData.Props
open LitData

/-- Inputs that numpy gives back as they are: grids of the same extent without tuples, of numbers only or of texts only, no text ending in a zero character. -/
structure Uniform (items : List UserItem) : Prop where
  shape : ∃ s, ∀ x ∈ items, HasShape x s
  noTuple : ∀ x ∈ items, NoTuple x
  kind : (∀ x ∈ items, ∀ a ∈ atomsOf x, ∃ i, a = .inl i) ∨ ∀ x ∈ items, ∀ a ∈ atomsOf x, ∃ s, a = .inr s ∧ NoNulEnd s

theorem Uniform.sub {items : List UserItem} (h : Uniform items) (l : List UserItem) (hl : ∀ x ∈ l, x ∈ items) : Uniform l := by
  obtain ⟨⟨s, hs⟩, h2, h3⟩ := h
  refine ⟨⟨s, fun x hx => hs x (hl x hx)⟩, fun x hx => h2 x (hl x hx), ?_⟩
  rcases h3 with h3 | h3
  · exact .inl fun x hx => h3 x (hl x hx)
  · exact .inr fun x hx => h3 x (hl x hx)

/-- **C69, one worker.** The inputs of a worker come back from numpy as they were exactly if they are uniform. -/
theorem c69_exact_iff (l : List UserItem) : npItems l = .ok l ↔ Uniform l := by
  rw [npItems_ok]
  unfold npConv
  rw [eq_comm (a := l), viaNumpyList_eq, noTuples_iff, atomsOfAll_eq]
  have hmem : ∀ a, a ∈ l.flatMap atomsOf ↔ ∃ x ∈ l, a ∈ atomsOf x := fun a => List.mem_flatMap
  constructor
  · rintro ⟨hs, hn, ha⟩
    refine ⟨hs, hn, ?_⟩
    cases ht : anyText l with
    | true =>
      right
      intro x hx a hax
      rcases ha a ((hmem a).2 ⟨x, hx, hax⟩) with ⟨i, _, h⟩ | h
      · rw [ht] at h; cases h
      · exact h
    | false =>
      left
      intro x hx a hax
      cases a with
      | inl i => exact ⟨i, rfl⟩
      | inr s =>
        have := (anyText_iff l).2 ⟨s, by rw [atomsOfAll_eq]; exact (hmem _).2 ⟨x, hx, hax⟩⟩
        rw [ht] at this; cases this
  · rintro ⟨hs, hn, hk⟩
    refine ⟨hs, hn, ?_⟩
    intro a ha
    obtain ⟨x, hx, hax⟩ := (hmem a).1 ha
    rcases hk with hk | hk
    · obtain ⟨i, rfl⟩ := hk x hx a hax
      refine .inl ⟨i, rfl, ?_⟩
      cases ht : anyText l with
      | false => rfl
      | true =>
        obtain ⟨s, hs⟩ := (anyText_iff l).1 ht
        rw [atomsOfAll_eq] at hs
        obtain ⟨y, hy, hys⟩ := (hmem _).1 hs
        obtain ⟨i, hi⟩ := hk y hy _ hys
        cases hi
    · exact .inr (hk x hx a hax)

theorem uniform_conv {l : List UserItem} (h : Uniform l) : npConv l = l := ((npItems_ok l l).1 ((c69_exact_iff l).2 h)).2.symm

/-- All nodes together, when the workers' shares are converted by numpy. -/
theorem np_nodes (numNodes numWorkers : Nat) (draw : Nat → Nat → List UserItem → List UserItem) (hdraw : ∀ r w l, (draw r w l).Perm l)
    (items : List UserItem) (weights : List Int) (hl : items.length = weights.length) (hpos : ∀ w ∈ weights, 0 < w)
    (hN : 0 < numNodes) (hn : 0 < numWorkers) (outs : List (List (List UserItem))) (hlen : outs.length = numNodes)
    (hout : ∀ (r : Nat) (o : List (List UserItem)), outs[r]? = some o → mapWeightedNp numNodes r numWorkers (draw r) items (some weights) = .ok o) :
    ∃ outs0 : List (List (List UserItem)), outs0.length = outs.length ∧ outs0.flatten.flatten.Perm items ∧
      (∀ (r : Nat) (o o0 : List (List UserItem)), outs[r]? = some o → outs0[r]? = some o0 → o.length = o0.length ∧
        ∀ (i : Nat) (a b : List UserItem), o[i]? = some a → o0[i]? = some b → a.Perm (npConv b)) := by
  obtain ⟨outs0, h1, h2, h3⟩ := c24_nodes numNodes numWorkers (fun _ _ l => l) (fun _ _ l => List.Perm.refl l) items weights hl hpos hN hn
  refine ⟨outs0, by omega, h3, ?_⟩
  intro r o o0 ho ho0
  obtain ⟨q, hq, hql, _, hqi⟩ := mapWeightedNp_ok _ _ _ _ _ _ _ (hout r o ho)
  have : q = o0 := by
    have h4 := (h2 r o0 ho0).1
    rw [hq] at h4
    injection h4
  subst this
  refine ⟨hql.symm, ?_⟩
  intro i a b ha hb
  have := hqi i b hb
  rw [ha] at this
  injection this with this
  rw [this]
  exact hdraw _ _ _

/-- **C69 (partial).** Proved for uniform inputs. With weights or with the sizes of the files as weights, every node succeeds, and the inputs of all workers
of all nodes together are the inputs of the user, each given once and as it was. -/
theorem c69_inputs_partial (numNodes numWorkers : Nat) (draw : Nat → Nat → List UserItem → List UserItem) (hdraw : ∀ r w l, (draw r w l).Perm l)
    (leaves : UserItem → List (Option Nat)) (items : List UserItem) (hu : Uniform items) (weights : Option (List Int))
    (hw : (∃ ws, weights = some ws ∧ items.length = ws.length ∧ ∀ w ∈ ws, 0 < w) ∨
      (weights = none ∧ ∀ x ∈ items, (∃ n, some n ∈ leaves x) ∧ some 0 ∉ leaves x))
    (hN : 0 < numNodes) (hn : 0 < numWorkers) :
    ∃ outs : List (List (List UserItem)), outs.length = numNodes ∧
      (∀ (r : Nat) (o : List (List UserItem)), outs[r]? = some o →
        mapItemsNp numNodes r numWorkers (draw r) leaves items weights true = .ok o ∧ o.length = numWorkers) ∧
      outs.flatten.flatten.Perm items := by
  obtain ⟨ws, hl, hpos, heq⟩ : ∃ ws : List Int, items.length = ws.length ∧ (∀ w ∈ ws, 0 < w) ∧
      ∀ r, mapItemsNp numNodes r numWorkers (draw r) leaves items weights true = mapWeightedNp numNodes r numWorkers (draw r) items (some ws) := by
    rcases hw with ⟨ws, rfl, h1, h2⟩ | ⟨rfl, h⟩
    · exact ⟨ws, h1, h2, fun r => by simp [mapItemsNp, h1]⟩
    · obtain ⟨ws, h1, h2, h3⟩ := itemSizes_pos leaves items h
      refine ⟨ws, h2.symm, h3, fun r => ?_⟩
      simp only [mapItemsNp, if_true, h1]
      rfl
  obtain ⟨outs0, g1, g2, g3⟩ := c24_nodes numNodes numWorkers (fun _ _ l => l) (fun _ _ l => List.Perm.refl l) items ws hl hpos hN hn
  have hsub : ∀ o0 ∈ outs0, ∀ l ∈ o0, Uniform l := by
    intro o0 ho0 l hl0
    exact hu.sub l fun x hx => g3.subset (List.mem_flatten.2 ⟨l, List.mem_flatten.2 ⟨o0, ho0, hl0⟩, hx⟩)
  have hex : ∀ r : Nat, r < numNodes → ∃ o, mapWeightedNp numNodes r numWorkers (draw r) items (some ws) = .ok o := by
    intro r hr
    have hr' : r < outs0.length := by omega
    refine (mapWeightedNp_some _ _ _ _ _ _ _ (g2 r outs0[r] (List.getElem?_eq_getElem hr')).1).1 ?_
    intro l hl0
    exact (hsub _ (List.getElem_mem hr') l hl0).shape
  let get : Nat → List (List UserItem) := fun r => match mapWeightedNp numNodes r numWorkers (draw r) items (some ws) with
    | .ok o => o
    | .error _ => []
  have hget : ∀ r, r < numNodes → mapWeightedNp numNodes r numWorkers (draw r) items (some ws) = .ok (get r) := by
    intro r hr
    obtain ⟨o, ho⟩ := hex r hr
    simp only [get, ho]
  have hout : ∀ (r : Nat) (o : List (List UserItem)), ((List.range numNodes).map get)[r]? = some o →
      mapWeightedNp numNodes r numWorkers (draw r) items (some ws) = .ok o := by
    intro r o h
    by_cases hr : r < numNodes
    · rw [List.getElem?_map, List.getElem?_range hr] at h
      simp only [Option.map_some, Option.some.injEq] at h
      rw [← h]
      exact hget r hr
    · rw [List.getElem?_eq_none (by simpa using hr)] at h; cases h
  refine ⟨(List.range numNodes).map get, by simp, ?_, ?_⟩
  · intro r o h
    rw [heq]
    refine ⟨hout r o h, ?_⟩
    obtain ⟨q, hq, hql, _⟩ := mapWeightedNp_ok _ _ _ _ _ _ _ (hout r o h)
    have hr : r < outs0.length := by
      have := (List.getElem?_eq_some_iff.1 h).1
      simp at this; omega
    have h5 := g2 r outs0[r] (List.getElem?_eq_getElem hr)
    rw [h5.1] at hq
    injection hq with hq
    rw [← hql, ← hq]
    exact h5.2
  · obtain ⟨outs1, k1, k2, k3⟩ := np_nodes numNodes numWorkers draw hdraw items ws hl hpos hN hn _ (by simp) hout
    refine List.Perm.trans ?_ k2
    have hsub1 : ∀ o0 ∈ outs1, ∀ l ∈ o0, Uniform l := fun o0 ho0 l hl0 =>
      hu.sub l fun x hx => k2.subset (List.mem_flatten.2 ⟨l, List.mem_flatten.2 ⟨o0, ho0, hl0⟩, hx⟩)
    rw [List.flatten_flatten, List.flatten_flatten]
    refine flatten_eq_of_parts _ _ (by simpa using k1.symm) ?_
    intro r a b ha hb
    rw [List.getElem?_map] at ha hb
    cases ho : ((List.range numNodes).map get)[r]? with
    | none => rw [ho] at ha; cases ha
    | some o =>
      cases ho0 : outs1[r]? with
      | none => rw [ho0] at hb; cases hb
      | some o0 =>
        rw [ho] at ha
        rw [ho0] at hb
        simp only [Option.map_some, Option.some.injEq] at ha hb
        subst ha; subst hb
        obtain ⟨m1, m2⟩ := k3 r o o0 ho ho0
        refine flatten_eq_of_parts _ _ m1 ?_
        intro i x y hx hy
        have := m2 i x y hx hy
        rwa [uniform_conv (hsub1 o0 (List.mem_of_getElem? ho0) y (List.mem_of_getElem? hy))] at this

/-- File names are uniform. -/
theorem uniform_texts (names : List String) (h : ∀ s ∈ names, NoNulEnd s) : Uniform (names.map .str) := by
  refine ⟨⟨[], ?_⟩, ?_, .inr ?_⟩
  · intro x hx
    obtain ⟨s, _, rfl⟩ := List.mem_map.1 hx
    exact .str s
  · intro x hx
    obtain ⟨s, _, rfl⟩ := List.mem_map.1 hx
    simp [NoTuple]
  · intro x hx a ha
    obtain ⟨s, hs, rfl⟩ := List.mem_map.1 hx
    simp only [atomsOf, List.mem_singleton] at ha
    exact ⟨s, ha, h s hs⟩

/-- Numbers are uniform. -/
theorem uniform_ints (is : List Int) : Uniform (is.map .int) := by
  refine ⟨⟨[], ?_⟩, ?_, .inl ?_⟩
  · intro x hx
    obtain ⟨s, _, rfl⟩ := List.mem_map.1 hx
    exact .int s
  · intro x hx
    obtain ⟨s, _, rfl⟩ := List.mem_map.1 hx
    simp [NoTuple]
  · intro x hx a ha
    obtain ⟨s, hs, rfl⟩ := List.mem_map.1 hx
    simp only [atomsOf, List.mem_singleton] at ha
    exact ⟨s, ha⟩

/-- The hypotheses of `c69_inputs_partial` for three files of sizes 7, 2 and 4. -/
example : Uniform [.str "a.png", .str "b.png", .str "c.png"] ∧
    mapItemsNp 2 0 1 (fun _ l => l.reverse) (fun x => match x with | .str "a.png" => [some 7] | .str "b.png" => [some 2] | _ => [some 4])
      [.str "a.png", .str "b.png", .str "c.png"] none true = .ok [[.str "a.png"]] :=
  ⟨uniform_texts ["a.png", "b.png", "c.png"] (by simp only [NoNulEnd]; decide +kernel), rfl⟩

/-- **C69, whatever the inputs.** When every node succeeds, the workers' inputs are those of the user up to the type: the same extents, and the same numbers
and texts if one does not tell a number from its text. No tuple is left. -/
theorem c69_values (numNodes numWorkers : Nat) (draw : Nat → Nat → List UserItem → List UserItem) (hdraw : ∀ r w l, (draw r w l).Perm l)
    (items : List UserItem) (hnul : ∀ x ∈ items, ∀ s, Sum.inr s ∈ atomsOf x → NoNulEnd s)
    (weights : List Int) (hl : items.length = weights.length) (hpos : ∀ w ∈ weights, 0 < w)
    (hN : 0 < numNodes) (hn : 0 < numWorkers) (outs : List (List (List UserItem))) (hlen : outs.length = numNodes)
    (hout : ∀ (r : Nat) (o : List (List UserItem)), outs[r]? = some o → mapWeightedNp numNodes r numWorkers (draw r) items (some weights) = .ok o) :
    (outs.flatten.flatten.map fun x => (x.shape, (atomsOf x).map spelled)).Perm (items.map fun x => (x.shape, (atomsOf x).map spelled)) ∧
    ∀ o ∈ outs, ∀ l ∈ o, NoTuples l := by
  obtain ⟨outs1, k1, k2, k3⟩ := np_nodes numNodes numWorkers draw hdraw items weights hl hpos hN hn outs hlen hout
  constructor
  · refine List.Perm.trans ?_ (k2.map _)
    rw [List.flatten_flatten, List.flatten_flatten]
    refine perm_flatten_map _ _ _ (by simpa using k1.symm) ?_
    intro r a b ha hb
    rw [List.getElem?_map] at ha hb
    cases ho : outs[r]? with
    | none => rw [ho] at ha; cases ha
    | some o =>
      cases ho0 : outs1[r]? with
      | none => rw [ho0] at hb; cases hb
      | some o0 =>
        rw [ho] at ha
        rw [ho0] at hb
        simp only [Option.map_some, Option.some.injEq] at ha hb
        subst ha; subst hb
        obtain ⟨m1, m2⟩ := k3 r o o0 ho ho0
        refine perm_flatten_map _ _ _ m1 ?_
        intro i x y hx hy
        refine ((m2 i x y hx hy).map _).trans ?_
        unfold npConv
        rw [viaNumpyList_map, List.map_map]
        have : y.map ((fun x => (x.shape, (atomsOf x).map spelled)) ∘ UserItem.viaNumpy (anyText y)) = y.map fun x => (x.shape, (atomsOf x).map spelled) := by
          apply List.map_congr_left
          intro z hz
          have hz' : z ∈ items := k2.subset (List.mem_flatten.2 ⟨y, List.mem_flatten.2 ⟨o0, List.mem_of_getElem? ho0, List.mem_of_getElem? hy⟩, hz⟩)
          simp only [Function.comp, shape_viaNumpy, atoms_viaNumpy _ z (hnul z hz')]
        rw [this]
  · intro o ho l hl0
    obtain ⟨r, hr, rfl⟩ := List.getElem_of_mem ho
    obtain ⟨i, hi, rfl⟩ := List.getElem_of_mem hl0
    have hr1 : r < outs1.length := by omega
    obtain ⟨m1, m2⟩ := k3 r _ _ (List.getElem?_eq_getElem hr) (List.getElem?_eq_getElem hr1)
    have hp := m2 i _ _ (List.getElem?_eq_getElem hi) (List.getElem?_eq_getElem (by omega))
    rw [noTuples_iff]
    intro x hx
    exact (noTuples_iff _).1 (viaNumpyList_noTuples _ _) x (hp.subset hx)

/-- **C69, without weights and reordering.** The inputs are cut into consecutive parts and not touched, whatever they are. -/
theorem c69_sequential (numNodes numWorkers : Nat) (draw : Nat → Nat → List UserItem → List UserItem) (leaves : UserItem → List (Option Nat))
    (items : List UserItem) (hN : 0 < numNodes) (hn : 0 < numWorkers) :
    ∃ outs : List (List (List UserItem)), outs.length = numNodes ∧
      (∀ (r : Nat) (o : List (List UserItem)), outs[r]? = some o →
        mapItemsNp numNodes r numWorkers (draw r) leaves items none false = .ok o ∧ o.length = numWorkers) ∧
      outs.flatten.flatten = items := by
  obtain ⟨outs, h1, h2, h3, _⟩ := c23_sequential numNodes numWorkers items hn
  exact ⟨outs, h1, fun r o h => by simpa [mapItemsNp] using h2 r o h, h3 hN⟩

example : mapItemsNp 1 0 2 (fun _ l => l) (fun _ => []) [.tuple [.str "a", .int 1], .int 2, .list []] none false
    = .ok [[.tuple [.str "a", .int 1]], [.int 2, .list []]] := rfl

/-- One worker in all. -/
theorem np_one_worker (draw : Nat → List UserItem → List UserItem) (items : List UserItem) (weights : List Int)
    (hl : items.length = weights.length) (hpos : ∀ w ∈ weights, 0 < w) :
    ∃ l, l.Perm items ∧ ((∃ s, ∀ x ∈ items, HasShape x s) → mapWeightedNp 1 0 1 draw items (some weights) = .ok [draw 0 (npConv l)]) ∧
      ((¬ ∃ s, ∀ x ∈ items, HasShape x s) → mapWeightedNp 1 0 1 draw items (some weights) = .error .valueError) := by
  obtain ⟨outs0, g1, g2, g3⟩ := c24_nodes 1 1 (fun _ _ l => l) (fun _ _ l => List.Perm.refl l) items weights hl hpos (by omega) (by omega)
  obtain ⟨o0, rfl⟩ := List.length_eq_one_iff.1 g1
  obtain ⟨h1, h2⟩ := g2 0 o0 rfl
  obtain ⟨l, rfl⟩ := List.length_eq_one_iff.1 h2
  have hp : l.Perm items := by simpa using g3
  refine ⟨l, hp, ?_, ?_⟩
  · rintro ⟨s, hs⟩
    obtain ⟨o, ho⟩ := (mapWeightedNp_some 1 0 1 draw items (some weights) _ h1).1 (by
      intro l' hl'
      rw [List.mem_singleton.1 hl']
      exact ⟨s, fun x hx => hs x (hp.subset hx)⟩)
    obtain ⟨q, hq, hql, _, hqi⟩ := mapWeightedNp_ok _ _ _ _ _ _ _ ho
    rw [h1] at hq
    injection hq with hq
    subst hq
    have h3 := hqi 0 l rfl
    obtain ⟨a, rfl⟩ := List.length_eq_one_iff.1 hql.symm
    rw [ho]
    simp only [List.getElem?_cons_zero, Option.some.injEq] at h3
    rw [h3]
  · intro hn
    refine (mapWeightedNp_some 1 0 1 draw items (some weights) _ h1).2 ⟨l, List.mem_singleton.2 rfl, ?_⟩
    rintro ⟨s, hs⟩
    exact hn ⟨s, fun x hx => hs x (hp.symm.subset hx)⟩

/-- **C69, refused.** With one worker, inputs of different extents are refused, although nothing is wrong with them. -/
theorem c69_ragged_refused (draw : Nat → List UserItem → List UserItem) (leaves : UserItem → List (Option Nat)) (items : List UserItem) (weights : List Int)
    (hl : items.length = weights.length) (hpos : ∀ w ∈ weights, 0 < w) (reorder : Bool) (x y : UserItem) (hx : x ∈ items) (hy : y ∈ items) (s : List Nat)
    (hxs : HasShape x s) (hys : ¬ HasShape y s) :
    mapItemsNp 1 0 1 draw leaves items (some weights) reorder = .error .valueError := by
  obtain ⟨l, _, _, h⟩ := np_one_worker draw items weights hl hpos
  simp only [mapItemsNp, hl, ne_eq, not_true_eq_false, if_false]
  apply h
  rintro ⟨t, ht⟩
  have h1 := (shape_iff x t).2 (ht x hx)
  rw [(shape_iff x s).2 hxs] at h1
  injection h1 with h1
  subst h1
  exact hys (ht y hy)

/-- A line of two points and a line of three. -/
example : mapItemsNp 1 0 1 (fun _ l => l) (fun _ => []) [.list [.int 1, .int 2], .list [.int 1, .int 2, .int 3]] (some [1, 1]) true = .error .valueError := by
  refine c69_ragged_refused _ _ _ _ rfl (by simp) true (.list [.int 1, .int 2]) (.list [.int 1, .int 2, .int 3]) (by simp) (by simp) [2] ?_ ?_
  · exact .list _ [] (by simp) (by intro x hx; simp at hx; rcases hx with rfl | rfl <;> exact .int _)
  · intro h
    cases h

/-- **C69, refuted for `batch_size`.** With one worker that reorders its files, a last group that is shorter than the others is refused: `optimize` with a
`batch_size` that does not divide the number of files raises ValueError. -/
theorem c69_short_batch_refused (draw : Nat → List UserItem → List UserItem) (leaves : UserItem → List (Option Nat)) (b : Nat) (hb : 1 < b)
    (inputs : List UserItem) (hlt : b < inputs.length) (hmod : inputs.length % b ≠ 0)
    (hfile : ∀ (g : List UserItem), g ≠ [] → (∀ x ∈ g, x ∈ inputs) → (∃ n, some n ∈ leaves (.list g)) ∧ some 0 ∉ leaves (.list g)) :
    ∃ groups : List (List UserItem), batchInputs (some (b : Int)) inputs = .inr groups ∧
      mapItemsNp 1 0 1 draw leaves (groups.map .list) none true = .error .valueError := by
  obtain ⟨groups, h1, h2, h3, h4⟩ := c40_groups b hb inputs
  refine ⟨groups, h1, ?_⟩
  have hbpos : 0 < b := by omega
  have hq : inputs.length = b * (inputs.length / b) + inputs.length % b := (Nat.div_add_mod _ _).symm
  have hmlt : inputs.length % b < b := Nat.mod_lt _ hbpos
  have hcount : groups.length = inputs.length / b + 1 := by
    rw [h3]
    conv => lhs; rw [hq]
    rw [show b * (inputs.length / b) + inputs.length % b + b - 1 = b * (inputs.length / b) + (inputs.length % b + b - 1) by omega,
      Nat.mul_add_div hbpos]
    congr 1
    exact Nat.div_eq_of_lt_le (by omega) (by omega)
  have hdpos : 0 < inputs.length / b := Nat.div_pos (by omega) hbpos
  have hsub : ∀ g ∈ groups, g ≠ [] ∧ ∀ x ∈ g, x ∈ inputs := by
    intro g hg
    obtain ⟨j, hj, rfl⟩ := List.getElem_of_mem hg
    refine ⟨(h4 j _ (List.getElem?_eq_getElem hj)).1, fun x hx => ?_⟩
    rw [← h2]
    exact List.mem_flatten.2 ⟨_, List.getElem_mem hj, hx⟩
  obtain ⟨ws, w1, w2, w3⟩ := itemSizes_pos leaves (groups.map .list) (by
    intro x hx
    obtain ⟨g, hg, rfl⟩ := List.mem_map.1 hx
    exact hfile g (hsub g hg).1 (hsub g hg).2)
  simp only [mapItemsNp, if_true, w1]
  show mapWeightedNp 1 0 1 draw (groups.map .list) (some ws) = _
  obtain ⟨l, _, _, h⟩ := np_one_worker draw (groups.map .list) ws w2.symm w3
  apply h
  rintro ⟨t, ht⟩
  have hfirst : 0 < groups.length := by omega
  have hlast : groups.length - 1 < groups.length := by omega
  have f1 := h4 0 _ (List.getElem?_eq_getElem hfirst)
  have f2 := h4 (groups.length - 1) _ (List.getElem?_eq_getElem hlast)
  have e1 : groups[0].length = b := f1.2.2.1 (by omega)
  have e2 : groups[groups.length - 1].length ≠ b := by
    intro he
    have := f2.2.2.2 (b - 1) (by omega)
    rw [List.getElem?_eq_getElem (by omega)] at this
    have hlt2 := (List.getElem?_eq_some_iff.1 this.symm).1
    rw [hcount, Nat.add_sub_cancel] at hlt2
    have : inputs.length / b * b = b * (inputs.length / b) := Nat.mul_comm _ _
    omega
  have s1 := shape_of_hasShape (ht _ (List.mem_map.2 ⟨_, List.getElem_mem hfirst, rfl⟩))
  have s2 := shape_of_hasShape (ht _ (List.mem_map.2 ⟨_, List.getElem_mem hlast, rfl⟩))
  rcases (seqShape_some _ _).1 s1 with ⟨h5, _⟩ | ⟨_, t1, h5, _⟩
  · exact f1.1 h5
  · rcases (seqShape_some _ _).1 s2 with ⟨h6, _⟩ | ⟨_, t2, h6, _⟩
    · exact f2.1 h6
    · rw [h5] at h6
      injection h6 with h6
      exact e2 (by omega)

/-- Five files in groups of two. -/
example : mapItemsNp 1 0 1 (fun _ l => l) (fun _ => [some 3]) ((groupInputs 2 (["a", "b", "c", "d", "e"].map UserItem.str)).map .list) none true
    = .error .valueError := rfl

/-- **C69, refuted for tuples of a file and a label.** A worker gets a list of two texts for every such tuple: the tuple is a list and the number is a text. -/
theorem c69_labels_become_texts (numNodes r numWorkers : Nat) (draw : Nat → List UserItem → List UserItem) (hdraw : ∀ w l, (draw w l).Perm l)
    (pairs : List (String × Int)) (hp : ∀ p ∈ pairs, NoNulEnd p.1) (weights : List Int) (hl : pairs.length = weights.length) (hpos : ∀ w ∈ weights, 0 < w)
    (hr : r < numNodes) (hn : 0 < numWorkers) (leaves : UserItem → List (Option Nat)) (reorder : Bool) :
    ∃ o, mapItemsNp numNodes r numWorkers draw leaves (pairs.map fun p => .tuple [.str p.1, .int p.2]) (some weights) reorder = .ok o ∧
      ∀ l ∈ o, ∀ x ∈ l, ∃ p ∈ pairs, x = .list [.str p.1, .str (toString p.2)] := by
  have hlen : (pairs.map fun p => UserItem.tuple [.str p.1, .int p.2]).length = weights.length := by simpa using hl
  obtain ⟨outs0, g1, g2, g3⟩ := c24_nodes numNodes numWorkers (fun _ _ l => l) (fun _ _ l => List.Perm.refl l)
    (pairs.map fun p => UserItem.tuple [.str p.1, .int p.2]) weights hlen hpos (by omega) hn
  have hr' : r < outs0.length := by omega
  have h0 := (g2 r outs0[r] (List.getElem?_eq_getElem hr')).1
  have hshape : ∀ p : String × Int, HasShape (.tuple [.str p.1, .int p.2]) [2] := by
    intro p
    refine .tuple _ [] (by simp) ?_
    intro x hx
    simp only [List.mem_cons, List.not_mem_nil, or_false] at hx
    rcases hx with rfl | rfl
    · exact .str _
    · exact .int _
  have hmem : ∀ l ∈ outs0[r], ∀ x ∈ l, ∃ p ∈ pairs, x = .tuple [.str p.1, .int p.2] := by
    intro l hl0 x hx
    have := g3.subset (List.mem_flatten.2 ⟨l, List.mem_flatten.2 ⟨_, List.getElem_mem hr', hl0⟩, hx⟩)
    obtain ⟨p, hp, rfl⟩ := List.mem_map.1 this
    exact ⟨p, hp, rfl⟩
  obtain ⟨o, ho⟩ := (mapWeightedNp_some numNodes r numWorkers draw _ (some weights) _ h0).1 (by
    intro l hl0
    refine ⟨[2], fun x hx => ?_⟩
    obtain ⟨p, _, rfl⟩ := hmem l hl0 x hx
    exact hshape p)
  refine ⟨o, by simp only [mapItemsNp, hlen, ne_eq, not_true_eq_false, if_false]; exact ho, ?_⟩
  obtain ⟨q, hq, hql, _, hqi⟩ := mapWeightedNp_ok _ _ _ _ _ _ _ ho
  rw [h0] at hq
  injection hq with hq
  subst hq
  intro l hl0 x hx
  obtain ⟨i, hi, rfl⟩ := List.getElem_of_mem hl0
  have hi0 : i < outs0[r].length := by omega
  have h1 := hqi i _ (List.getElem?_eq_getElem hi0)
  rw [List.getElem?_eq_getElem hi] at h1
  injection h1 with h1
  rw [h1] at hx
  have hx := (hdraw _ _).subset hx
  have hin := hmem _ (List.getElem_mem hi0)
  generalize outs0[r][i] = bin at hx hin
  unfold npConv at hx
  rw [viaNumpyList_map] at hx
  obtain ⟨y, hy, rfl⟩ := List.mem_map.1 hx
  have ht : anyText bin = true := by
    rw [anyText_iff, atomsOfAll_eq]
    obtain ⟨p, _, rfl⟩ := hin y hy
    exact ⟨p.1, List.mem_flatMap.2 ⟨_, hy, by simp [atomsOf, atomsOfAll]⟩⟩
  obtain ⟨p, hpp, rfl⟩ := hin y hy
  refine ⟨p, hpp, ?_⟩
  rw [ht]
  show UserItem.list [.str (stripNul p.1), .str (toString p.2)] = _
  rw [(stripNul_eq _).2 (hp p hpp)]

example : mapItemsNp 1 0 1 (fun _ l => l) (fun _ => []) [.tuple [.str "a.png", .int 3]] (some [1]) false
    = .ok [[.list [.str "a.png", .str "3"]]] := rfl

/-- **C69, refuted for mixed inputs.** What a worker gets for a number depends on the other inputs of the same worker: with one worker the numbers are texts,
with three workers they are numbers. -/
theorem c69_depends_on_workers :
    mapItemsNp 1 0 1 (fun _ l => l) (fun _ => []) [.int 1, .int 2, .str "a"] (some [3, 2, 1]) false = .ok [[.str "1", .str "2", .str "a"]] ∧
    mapItemsNp 1 0 3 (fun _ l => l) (fun _ => []) [.int 1, .int 2, .str "a"] (some [3, 2, 1]) false = .ok [[.int 1], [.int 2], [.str "a"]] :=
  ⟨rfl, rfl⟩

/-- **C69 and checkpoints.** The inputs that a node has handed to its workers by weights are accepted when the run is continued, also if the user gave tuples:
none is left. -/
theorem c69_checkpoint_accepts (numNodes r numWorkers : Nat) (draw : Nat → List UserItem → List UserItem) (hdraw : ∀ w l, (draw w l).Perm l)
    (items : List UserItem) (weights : Option (List Int)) (o : List (List UserItem))
    (h : mapWeightedNp numNodes r numWorkers draw items weights = .ok o) :
    checkConfig (savedConfig numWorkers o) numWorkers o = .ok () := by
  refine (c25_tuple_inputs_refused numWorkers o).1.2 ?_
  obtain ⟨q, hq, hql, _, hqi⟩ := mapWeightedNp_ok _ _ _ _ _ _ _ h
  intro l hl
  obtain ⟨i, hi, rfl⟩ := List.getElem_of_mem hl
  have h1 := hqi i _ (List.getElem?_eq_getElem (by omega))
  rw [List.getElem?_eq_getElem hi] at h1
  injection h1 with h1
  rw [noTuples_iff]
  intro x hx
  rw [h1] at hx
  exact (noTuples_iff _).1 (viaNumpyList_noTuples _ _) x ((hdraw _ _).subset hx)

end LitData.Props
