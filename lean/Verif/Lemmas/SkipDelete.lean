import Verif.Model.SkipDelete

/-! Lemmas on the simulation that finds the last worker to read a chunk. -/

namespace LitData

/-- The values given to a key. -/
def valsOf (ps : List (Nat × Nat)) (k : Nat) : List Nat := (ps.filter fun p => p.1 == k).map (·.2)

theorem valsOf_append (ps qs : List (Nat × Nat)) (k : Nat) : valsOf (ps ++ qs) k = valsOf ps k ++ valsOf qs k := by
  simp [valsOf]

/-- The dictionary `d` holds exactly what the pairs `ps` put in it. -/
structure DictOf (ps : List (Nat × Nat)) (d : List (Nat × List Nat)) : Prop where
  nodup : (d.map (·.1)).Nodup
  mem : ∀ k vs, (k, vs) ∈ d ↔ vs = valsOf ps k ∧ vs ≠ []

theorem DictOf.append {ps : List (Nat × Nat)} {d : List (Nat × List Nat)} (h : DictOf ps d) (p : Nat × Nat) :
    DictOf (ps ++ [p]) (dictAppend d p.1 p.2) := by
  obtain ⟨a, b⟩ := p
  have hv : ∀ k, valsOf (ps ++ [(a, b)]) k = valsOf ps k ++ if a = k then [b] else [] := by
    intro k
    rw [valsOf_append]
    by_cases hk : a = k <;> simp [valsOf, hk]
  unfold dictAppend
  by_cases hany : d.any (fun e => e.1 == a) = true
  · rw [if_pos hany]
    obtain ⟨e0, he0, hk0⟩ := List.any_eq_true.1 hany
    have hk0 : e0.1 = a := by simpa using hk0
    refine ⟨?_, ?_⟩
    · have : (d.map fun e => if (e.1 == a) = true then (e.1, e.2 ++ [b]) else e).map (·.1) = d.map (·.1) := by
        rw [List.map_map]
        refine List.map_congr_left fun e _ => ?_
        simp only [Function.comp_def]
        split <;> rfl
      rw [this]
      exact h.nodup
    · intro k vs
      rw [hv, List.mem_map]
      constructor
      · rintro ⟨e, he, heq⟩
        obtain ⟨h1, h2⟩ := (h.mem e.1 e.2).1 he
        by_cases hea : e.1 = a
        · rw [if_pos (by simpa using hea)] at heq
          cases heq
          rw [if_pos hea.symm, ← h1]
          simp
        · rw [if_neg (by simpa using hea)] at heq
          subst heq
          simp only at h1 h2 hea ⊢
          rw [if_neg (fun hc => hea hc.symm), ← h1]
          simp [h2]
      · rintro ⟨h1, h2⟩
        by_cases hka : a = k
        · subst hka
          rw [if_pos rfl] at h1
          obtain ⟨g1, g2⟩ := (h.mem e0.1 e0.2).1 he0
          refine ⟨e0, he0, ?_⟩
          rw [if_pos (by simpa using hk0), h1, g1, hk0]
        · rw [if_neg hka, List.append_nil] at h1
          refine ⟨(k, vs), (h.mem k vs).2 ⟨h1, h2⟩, ?_⟩
          rw [if_neg (by simpa using fun hc => hka hc.symm)]
  · rw [if_neg hany]
    have hno : ∀ e ∈ d, e.1 ≠ a := by
      intro e he hc
      exact hany (List.any_eq_true.2 ⟨e, he, by simpa using hc⟩)
    have hempty : valsOf ps a = [] := by
      refine Classical.byContradiction fun hc => ?_
      exact hno _ ((h.mem a _).2 ⟨rfl, hc⟩) rfl
    refine ⟨?_, ?_⟩
    · rw [List.map_append, List.nodup_append]
      refine ⟨h.nodup, by simp, ?_⟩
      intro x hx y hy
      obtain ⟨e, he, rfl⟩ := List.mem_map.1 hx
      have hy : y = a := by simpa using hy
      subst hy
      exact hno e he
    · intro k vs
      rw [hv, List.mem_append, List.mem_singleton, h.mem]
      by_cases hka : a = k
      · subst hka
        rw [if_pos rfl, hempty, List.nil_append]
        constructor
        · rintro (⟨h1, h2⟩ | h1)
          · exact absurd h1 h2
          · cases h1; simp
        · rintro ⟨h1, _⟩
          exact Or.inr (by rw [h1])
      · rw [if_neg hka, List.append_nil]
        constructor
        · rintro (h1 | h1)
          · exact h1
          · cases h1; exact absurd rfl hka
        · exact Or.inl

theorem dictOfPairs_spec (ps : List (Nat × Nat)) : DictOf ps (dictOfPairs ps) := by
  have key : ∀ (qs rs : List (Nat × Nat)) (d : List (Nat × List Nat)), DictOf rs d →
      DictOf (rs ++ qs) (qs.foldl (fun d p => dictAppend d p.1 p.2) d) := by
    intro qs
    induction qs with
    | nil => intro rs d h; simpa using h
    | cons q qs ih =>
      intro rs d h
      rw [List.foldl_cons, show rs ++ q :: qs = (rs ++ [q]) ++ qs by simp]
      exact ih _ _ (h.append q)
  have := key ps [] [] ⟨by simp, by simp [valsOf]⟩
  simpa [dictOfPairs] using this

theorem mem_valsOf {ps : List (Nat × Nat)} {k v : Nat} : v ∈ valsOf ps k ↔ (k, v) ∈ ps := by
  unfold valsOf
  rw [List.mem_map]
  constructor
  · rintro ⟨p, hp, rfl⟩
    obtain ⟨h1, h2⟩ := List.mem_filter.1 hp
    have : p.1 = k := by simpa using h2
    subst this
    exact h1
  · intro h
    exact ⟨(k, v), List.mem_filter.2 ⟨h, by simp⟩, rfl⟩

theorem mem_chunkWorkerPairs {wc : List (List Nat)} {c w : Nat} :
    (c, w) ∈ chunkWorkerPairs wc ↔ ∃ l, wc[w]? = some l ∧ c ∈ l := by
  unfold chunkWorkerPairs
  rw [List.mem_flatMap]
  constructor
  · rintro ⟨⟨l, w'⟩, hp, hm⟩
    obtain ⟨c', hc', he⟩ := List.mem_map.1 hm
    simp only [Prod.mk.injEq] at he
    obtain ⟨rfl, rfl⟩ := he
    exact ⟨l, List.mk_mem_zipIdx_iff_getElem?.1 hp, hc'⟩
  · rintro ⟨l, hl, hc⟩
    exact ⟨(l, w), List.mk_mem_zipIdx_iff_getElem?.2 hl, List.mem_map.2 ⟨c, hc, rfl⟩⟩

/-! ### The simulation ends -/

theorem sum_map_set {α : Type} (f : α → Nat) (l : List α) (i : Nat) (x y : α) (h : l[i]? = some y) :
    ((l.set i x).map f).sum + f y = (l.map f).sum + f x := by
  induction l generalizing i with
  | nil => simp at h
  | cons a l ih =>
    cases i with
    | zero =>
      simp only [List.getElem?_cons_zero, Option.some.injEq] at h
      subst h
      simp only [List.set_cons_zero, List.map_cons, List.sum_cons]
      omega
    | succ i =>
      simp only [List.getElem?_cons_succ] at h
      have := ih i h
      simp only [List.set_cons_succ, List.map_cons, List.sum_cons]
      omega

/-- How often a worker has the chunk still before it. -/
def occOf (chunk : Nat) (l : WorkLeft) : Nat := l.countP fun p => p.1 == chunk

/-- How often the chunk is still to be read. -/
def occ (chunk : Nat) (left : List WorkLeft) : Nat := (left.map (occOf chunk)).sum

/-- The samples and pieces left of a worker. -/
def restOf (l : WorkLeft) : Nat := (l.map (·.2)).sum + l.length

/-- The samples and pieces left. -/
def restAll (left : List WorkLeft) : Nat := (left.map restOf).sum

theorem occOf_lessHead (chunk n : Nat) (l : WorkLeft) : occOf chunk (lessHead n l) = occOf chunk l := by
  cases l with
  | nil => rfl
  | cons p l => obtain ⟨c, s⟩ := p; simp [lessHead, occOf, List.countP_cons]

theorem restOf_lessHead_le (n : Nat) (l : WorkLeft) : restOf (lessHead n l) ≤ restOf l := by
  cases l with
  | nil => exact Nat.le_refl _
  | cons p l => obtain ⟨c, s⟩ := p; simp only [lessHead, restOf, List.map_cons, List.sum_cons, List.length_cons]; omega

theorem restOf_lessHead_lt (n c s : Nat) (l : WorkLeft) (h1 : 0 < n) (h2 : n ≤ s) :
    restOf (lessHead n ((c, s) :: l)) < restOf ((c, s) :: l) := by
  simp only [lessHead, restOf, List.map_cons, List.sum_cons, List.length_cons]; omega

theorem lessHead_zero : lessHead 0 = id := by
  funext l
  cases l with
  | nil => rfl
  | cons p l => rfl

theorem ids_lessHead (n : Nat) (l : WorkLeft) : (lessHead n l).map (·.1) = l.map (·.1) := by
  cases l with
  | nil => rfl
  | cons p l => rfl

theorem minList_le {l : List Nat} {a : Nat} (h : a ∈ l) : minList l ≤ a := by
  cases l with
  | nil => cases h
  | cons b l =>
    have key : ∀ (l : List Nat) (m : Nat), l.foldl min m ≤ m ∧ ∀ x ∈ l, l.foldl min m ≤ x := by
      intro l
      induction l with
      | nil => intro m; simp
      | cons c l ih =>
        intro m
        obtain ⟨h1, h2⟩ := ih (min m c)
        rw [List.foldl_cons]
        refine ⟨by omega, ?_⟩
        intro x hx
        rcases List.mem_cons.1 hx with rfl | hx
        · omega
        · exact h2 x hx
    obtain ⟨h1, h2⟩ := key l b
    rcases List.mem_cons.1 h with rfl | h
    · exact h1
    · exact h2 a h

theorem mem_headSizes {left : List WorkLeft} {w c s : Nat} {rest : WorkLeft} (h : left[w]? = some ((c, s) :: rest)) :
    s ∈ headSizes left := by
  unfold headSizes
  rw [List.mem_filterMap]
  exact ⟨_, List.mem_of_getElem? h, rfl⟩

theorem sum_map_le {α : Type} (f g : α → Nat) (l : List α) (h : ∀ a ∈ l, f a ≤ g a) : (l.map f).sum ≤ (l.map g).sum := by
  induction l with
  | nil => exact Nat.le_refl _
  | cons a l ih =>
    simp only [List.map_cons, List.sum_cons]
    have := h a (by simp)
    have := ih fun b hb => h b (by simp [hb])
    omega

theorem sum_map_lt {α : Type} (f g : α → Nat) (l : List α) (h : ∀ a ∈ l, f a ≤ g a) (a : α) (ha : a ∈ l)
    (hlt : f a < g a) : (l.map f).sum < (l.map g).sum := by
  induction l with
  | nil => cases ha
  | cons b l ih =>
    simp only [List.map_cons, List.sum_cons]
    rcases List.mem_cons.1 ha with rfl | ha
    · have := sum_map_le f g l fun b hb => h b (by simp [hb])
      omega
    · have := ih (fun b hb => h b (by simp [hb])) ha
      have := h b (by simp)
      omega

/-- What holds before every iteration, for any assignment. -/
structure SimOk (nw chunk : Nat) (ids : List (List Nat)) (s : SimState) : Prop where
  len : s.left.length = nw
  occ : occ chunk s.left = s.shared
  pos : 0 < s.shared
  carry : ∀ c, s.carry = some c → 0 < c
  ids : ∀ (w : Nat) (l : WorkLeft), s.left[w]? = some l → ∃ l0 : List Nat, ids[w]? = some l0 ∧ ∀ c ∈ l.map (·.1), c ∈ l0

theorem exists_nonempty {chunk : Nat} {left : List WorkLeft} (h : 0 < occ chunk left) :
    ∃ w : Nat, ∃ p : Nat × Nat, ∃ rest : WorkLeft, left[w]? = some (p :: rest) := by
  induction left with
  | nil => simp [occ] at h
  | cons l left ih =>
    cases l with
    | nil =>
      have : 0 < occ chunk left := by simpa [occ, occOf] using h
      obtain ⟨w, p, rest, hw⟩ := ih this
      exact ⟨w + 1, p, rest, by simpa using hw⟩
    | cons p rest => exact ⟨0, p, rest, rfl⟩

/-- The first part does nothing, or uses samples up. -/
theorem simPart1_spec (nw bs chunk : Nat) (ids : List (List Nat)) (s : SimState) (hbs : 0 < bs)
    (h : SimOk nw chunk ids s) : ∃ s', simPart1 bs s = .ok s' ∧ SimOk nw chunk ids s' ∧
      (s' = s ∨ restAll s'.left < restAll s.left) := by
  unfold simPart1
  cases hc : s.carry with
  | some c => exact ⟨s, rfl, h, Or.inl rfl⟩
  | none =>
    obtain ⟨w, p, rest, hw⟩ := exists_nonempty (h.occ ▸ h.pos)
    have hm : p.2 ∈ headSizes s.left := mem_headSizes (c := p.1) (rest := rest) hw
    have hne : headSizes s.left ≠ [] := by intro hc; rw [hc] at hm; cases hm
    simp only [if_neg hne, if_neg (Nat.pos_iff_ne_zero.1 hbs)]
    generalize hnb : minList (headSizes s.left) / bs - 1 = nb
    refine ⟨_, rfl, ⟨?_, ?_, h.pos, ?_, ?_⟩, ?_⟩
    · simp [h.len]
    · simp only [occ, List.map_map]
      rw [← h.occ]
      unfold occ
      congr 1
      refine List.map_congr_left fun l _ => ?_
      exact occOf_lessHead _ _ _
    · intro c hcc
      cases hcc
    · intro w l hl
      simp only [List.getElem?_map, Option.map_eq_some_iff] at hl
      obtain ⟨l', hl', rfl⟩ := hl
      rw [ids_lessHead]
      exact h.ids w l' hl'
    · by_cases h0 : nb = 0
      · left
        subst h0
        obtain ⟨a, b, c, d, e⟩ := s
        simp only at hc
        subst hc
        simp [lessHead_zero]
      · right
        simp only [restAll, List.map_map]
        refine sum_map_lt _ _ _ (fun l _ => restOf_lessHead_le _ l) (p :: rest) (List.mem_of_getElem? hw) ?_
        have hmin := minList_le hm
        have h1 : nb * bs ≤ minList (headSizes s.left) := by
          have h2 : minList (headSizes s.left) / bs * bs ≤ minList (headSizes s.left) := Nat.div_mul_le_self _ _
          have h3 : nb * bs ≤ minList (headSizes s.left) / bs * bs := Nat.mul_le_mul_right _ (by omega)
          omega
        have h4 : 0 < nb * bs := Nat.mul_pos (by omega) hbs
        obtain ⟨c, z⟩ := p
        exact restOf_lessHead_lt _ c z rest h4 (by simp only at hmin; omega)

/-- The second part ends the loop at a worker that has the chunk, or uses something up, or passes over a worker
that has nothing left. -/
theorem simPart2_spec (nw bs chunk : Nat) (ids : List (List Nat)) (s : SimState) (hnw : 0 < nw) (hbs : 0 < bs)
    (h : SimOk nw chunk ids s) :
    (∃ (i c : Nat) (l0 : List Nat), simPart2 nw bs chunk s = .ok (.done i c) ∧ ids[i % nw]? = some l0 ∧ chunk ∈ l0) ∨
    ∃ s', simPart2 nw bs chunk s = .ok (.more s') ∧ SimOk nw chunk ids s' ∧
      (restAll s'.left < restAll s.left ∨
        (s.left[s.idx % nw]? = some [] ∧ s'.left = s.left ∧ s'.idx = s.idx + 1)) := by
  have hlt : s.idx % nw < s.left.length := by rw [h.len]; exact Nat.mod_lt _ hnw
  unfold simPart2
  rw [if_neg (Nat.pos_iff_ne_zero.1 hnw)]
  have hget : s.left[s.idx % nw]? = some s.left[s.idx % nw] := List.getElem?_eq_getElem hlt
  rw [hget]
  generalize hl : s.left[s.idx % nw] = l at *
  cases l with
  | nil =>
    right
    exact ⟨_, rfl, ⟨h.len, h.occ, h.pos, h.carry, h.ids⟩, Or.inr ⟨rfl, rfl, rfl⟩⟩
  | cons p rest =>
    obtain ⟨c, z⟩ := p
    simp only
    have hrem : 0 < s.carry.getD bs := by
      cases hcar : s.carry with
      | none => exact hbs
      | some x => exact h.carry x hcar
    generalize hr : s.carry.getD bs = remover at *
    by_cases hz : z > remover
    · right
      rw [if_pos hz]
      refine ⟨_, rfl, ⟨by simp [h.len], ?_, h.pos, by simp, ?_⟩, Or.inl ?_⟩
      · have := sum_map_set (occOf chunk) s.left (s.idx % nw) ((c, z - remover) :: rest) _ hget
        have h2 := h.occ
        unfold occ at h2 ⊢
        simp only [occOf, List.countP_cons] at this h2 ⊢
        omega
      · intro w l hw
        rcases Nat.decEq w (s.idx % nw) with hne | heq
        · simp only [List.getElem?_set_ne (Ne.symm hne)] at hw
          exact h.ids w l hw
        · subst heq
          simp only [List.getElem?_set_self hlt, Option.some.injEq] at hw
          subst hw
          obtain ⟨l0, h0, h1⟩ := h.ids _ _ hget
          exact ⟨l0, h0, by simpa using h1⟩
      · have := sum_map_set restOf s.left (s.idx % nw) ((c, z - remover) :: rest) _ hget
        unfold restAll
        simp only [restOf, List.map_cons, List.sum_cons, List.length_cons] at this ⊢
        omega
    · rw [if_neg hz]
      have hocc := sum_map_set (occOf chunk) s.left (s.idx % nw) rest _ hget
      have h2 := h.occ
      have hpos := h.pos
      by_cases hd : (if c = chunk then s.shared - 1 else s.shared) = 0 ∧ c = chunk
      · left
        rw [if_pos hd]
        obtain ⟨l0, h0, h1⟩ := h.ids _ _ hget
        exact ⟨_, _, l0, rfl, h0, by rw [← hd.2]; exact h1 c (by simp)⟩
      · right
        rw [if_neg hd]
        refine ⟨_, rfl, ⟨by simp [h.len], ?_, ?_, ?_, ?_⟩, Or.inl ?_⟩
        · unfold occ at h2 ⊢
          simp only [occOf, List.countP_cons] at hocc h2 ⊢
          by_cases hcc : c = chunk
          · simp [hcc] at hocc ⊢; omega
          · simp [hcc] at hocc ⊢; omega
        · simp only
          by_cases hcc : c = chunk
          · simp only [hcc, if_true, and_true] at hd ⊢; omega
          · rw [if_neg hcc]; exact hpos
        · intro x hx
          simp only [carryAfterPop] at hx
          split at hx
          · cases hx
          · split at hx
            · cases hx; omega
            · exact h.carry x hx
        · intro w l hw
          rcases Nat.decEq w (s.idx % nw) with hne | heq
          · simp only [List.getElem?_set_ne (Ne.symm hne)] at hw
            exact h.ids w l hw
          · subst heq
            simp only [List.getElem?_set_self hlt, Option.some.injEq] at hw
            subst hw
            obtain ⟨l0, h0, h1⟩ := h.ids _ _ hget
            exact ⟨l0, h0, fun x hx => h1 x (by simp only [List.map_cons, List.mem_cons]; exact Or.inr hx)⟩
        · have := sum_map_set restOf s.left (s.idx % nw) rest _ hget
          unfold restAll
          simp only [restOf, List.map_cons, List.sum_cons, List.length_cons] at this ⊢
          omega

/-- The loop ends, at a worker that reads the chunk. -/
theorem simulate_ends (nw bs chunk : Nat) (ids : List (List Nat)) (hnw : 0 < nw) (hbs : 0 < bs) (m : Nat) :
    ∀ (s : SimState) (d : Nat), SimOk nw chunk ids s → d < nw →
      (∃ (p : Nat × Nat) (rest : WorkLeft), s.left[(s.idx + d) % nw]? = some (p :: rest)) → restAll s.left * nw + d ≤ m →
      ∀ fuel, m < fuel → ∃ (i c : Nat) (l0 : List Nat), simulate nw bs chunk fuel s = some (.ok (i, c)) ∧ ids[i % nw]? = some l0 ∧ chunk ∈ l0 := by
  induction m using Nat.strongRecOn with
  | _ m ih =>
    intro s d h hd hne hm fuel hfuel
    obtain ⟨fuel, rfl⟩ : ∃ f, fuel = f + 1 := ⟨fuel - 1, by omega⟩
    have next : ∀ s' : SimState, SimOk nw chunk ids s' → restAll s'.left < restAll s.left →
        ∃ (i c : Nat) (l0 : List Nat), simulate nw bs chunk fuel s' = some (.ok (i, c)) ∧ ids[i % nw]? = some l0 ∧ chunk ∈ l0 := by
      intro s' h' hlt
      obtain ⟨w, p, rest, hw⟩ := exists_nonempty (h'.occ ▸ h'.pos)
      have hwlt : w < nw := by
        have := (List.getElem?_eq_some_iff.1 hw).1
        rw [h'.len] at this; exact this
      have hmod := Nat.mod_lt s'.idx hnw
      have hmul : restAll s'.left * nw + nw ≤ restAll s.left * nw := by
        have := Nat.mul_le_mul_right nw hlt
        rw [Nat.succ_mul] at this; exact this
      have hd' : ∃ d', d' < nw ∧ (s'.idx + d') % nw = w := by
        refine ⟨(w + nw - s'.idx % nw) % nw, Nat.mod_lt _ hnw, ?_⟩
        have h1 : s'.idx % nw + (w + nw - s'.idx % nw) = w + nw := by omega
        rw [Nat.add_mod_mod, ← Nat.mod_add_mod, h1, Nat.add_mod_right, Nat.mod_eq_of_lt hwlt]
      obtain ⟨d', hd1, hd2⟩ := hd'
      exact ih (restAll s'.left * nw + d') (by omega) s' d' h' hd1 ⟨p, rest, by rw [hd2]; exact hw⟩
        (Nat.le_refl _) fuel (by omega)
    obtain ⟨s1, h1, hok1, hcase⟩ := simPart1_spec nw bs chunk ids s hbs h
    simp only [simulate, simStep, h1]
    rcases simPart2_spec nw bs chunk ids s1 hnw hbs hok1 with ⟨i, c, l0, h2, h3, h4⟩ | ⟨s2, h2, hok2, hdec⟩
    · rw [h2]
      exact ⟨i, c, l0, rfl, h3, h4⟩
    · rw [h2]
      simp only
      rcases hcase with rfl | hlt1
      · rcases hdec with hlt2 | ⟨he, hleft, hidx⟩
        · exact next s2 hok2 hlt2
        · obtain ⟨p, rest, hp⟩ := hne
          cases d with
          | zero =>
            rw [Nat.add_zero, he] at hp
            cases hp
          | succ d =>
            refine ih (restAll s2.left * nw + d) (by rw [hleft]; omega) s2 d hok2 (by omega) ⟨p, rest, ?_⟩
              (Nat.le_refl _) fuel (by rw [hleft]; omega)
            rw [hleft, hidx, show s1.idx + 1 + d = s1.idx + (d + 1) by omega]
            exact hp
      · refine next s2 hok2 ?_
        rcases hdec with hlt2 | ⟨_, hleft, _⟩
        · omega
        · rw [hleft]; exact hlt1

end LitData
