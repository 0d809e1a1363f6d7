import Verif.Lemmas.SkipDelete

/-! When the simulation is exact. -/

namespace LitData

/-- What is left of a worker's pieces after `e` samples. -/
def eat : Nat → WorkLeft → WorkLeft
  | _, [] => []
  | e, (c, s) :: rest => if e < s then (c, s - e) :: rest else eat (e - s) rest

/-- Number of samples up to the end of piece `k`. -/
def endOf (P : WorkLeft) (k : Nat) : Nat := ((P.take (k + 1)).map (·.2)).sum

/-- Number of samples. -/
def totalOf (P : WorkLeft) : Nat := (P.map (·.2)).sum

theorem eat_eat (a b : Nat) (P : WorkLeft) : eat b (eat a P) = eat (a + b) P := by
  induction P generalizing a b with
  | nil => rfl
  | cons p P ih =>
    obtain ⟨c, s⟩ := p
    by_cases h : a < s
    · simp only [eat, if_pos h]
      by_cases h2 : b < s - a
      · rw [if_pos h2, if_pos (by omega), Nat.sub_sub]
      · rw [if_neg h2, if_neg (by omega)]
        congr 1
        omega
    · simp only [eat, if_neg h]
      rw [ih, if_neg (by omega)]
      congr 1
      omega

theorem eat_zero (P : WorkLeft) (h : ∀ p ∈ P, 0 < p.2) : eat 0 P = P := by
  cases P with
  | nil => rfl
  | cons p P =>
    obtain ⟨c, s⟩ := p
    have := h (c, s) (by simp)
    simp only at this
    simp [eat, this]

theorem eat_nil_iff (e : Nat) (P : WorkLeft) (h : ∀ p ∈ P, 0 < p.2) : eat e P = [] ↔ totalOf P ≤ e := by
  induction P generalizing e with
  | nil => simp [eat, totalOf]
  | cons p P ih =>
    obtain ⟨c, s⟩ := p
    have ih := ih (e - s) fun q hq => h q (by simp [hq])
    simp only [eat, totalOf, List.map_cons, List.sum_cons] at ih ⊢
    split
    · simp; omega
    · rw [ih]; omega

theorem eat_cons {e : Nat} {P : WorkLeft} {c l : Nat} {rest : WorkLeft} (h : eat e P = (c, l) :: rest) :
    ∃ k s, P[k]? = some (c, s) ∧ endOf P k = e + l ∧ 0 < l ∧ l ≤ s ∧ rest = P.drop (k + 1) := by
  induction P generalizing e with
  | nil => cases h
  | cons p P ih =>
    obtain ⟨c', s⟩ := p
    simp only [eat] at h
    split at h
    · simp only [List.cons.injEq, Prod.mk.injEq] at h
      obtain ⟨⟨rfl, rfl⟩, rfl⟩ := h
      refine ⟨0, s, rfl, ?_, by omega, by omega, rfl⟩
      simp [endOf]; omega
    · obtain ⟨k, s', h1, h2, h3, h4, h5⟩ := ih h
      refine ⟨k + 1, s', by simpa using h1, ?_, h3, h4, by simpa using h5⟩
      simp only [endOf, List.take_succ_cons, List.map_cons, List.sum_cons] at h2 ⊢
      omega

theorem eat_total {e : Nat} {P : WorkLeft} {c l : Nat} {rest : WorkLeft} (h : eat e P = (c, l) :: rest) :
    e + l + totalOf rest = totalOf P := by
  induction P generalizing e with
  | nil => cases h
  | cons p P ih =>
    obtain ⟨c', s⟩ := p
    simp only [eat] at h
    split at h
    · simp only [List.cons.injEq, Prod.mk.injEq] at h
      obtain ⟨⟨rfl, rfl⟩, rfl⟩ := h
      simp [totalOf]; omega
    · have := ih h
      simp only [totalOf, List.map_cons, List.sum_cons] at this ⊢
      omega

theorem eat_more {e n : Nat} {P : WorkLeft} {c l : Nat} {rest : WorkLeft} (h : eat e P = (c, l) :: rest) (hn : n < l) :
    eat (e + n) P = (c, l - n) :: rest := by
  rw [← eat_eat, h, eat, if_pos hn]

theorem eat_pop {e : Nat} {P : WorkLeft} {c l : Nat} {rest : WorkLeft} (h : eat e P = (c, l) :: rest)
    (hpos : ∀ p ∈ P, 0 < p.2) : eat (e + l) P = rest := by
  rw [← eat_eat, h, eat, if_neg (Nat.lt_irrefl _), Nat.sub_self]
  obtain ⟨k, s, _, _, _, _, h5⟩ := eat_cons h
  exact eat_zero _ fun p hp => hpos p (List.mem_of_mem_drop (h5 ▸ hp))

theorem occOf_eat {e k chunk s : Nat} {P : WorkLeft} (h : P[k]? = some (chunk, s))
    (h0 : occOf chunk (eat e P) = 0) : endOf P k ≤ e := by
  induction P generalizing e k with
  | nil => simp at h
  | cons p P ih =>
    obtain ⟨c', s'⟩ := p
    simp only [eat] at h0
    cases k with
    | zero =>
      simp only [List.getElem?_cons_zero, Option.some.injEq, Prod.mk.injEq] at h
      obtain ⟨rfl, rfl⟩ := h
      split at h0
      · simp [occOf] at h0
      · simp [endOf]; omega
    | succ k =>
      simp only [List.getElem?_cons_succ] at h
      split at h0
      · exfalso
        have : 0 < occOf chunk P := by
          unfold occOf
          rw [List.countP_pos_iff]
          exact ⟨_, List.mem_of_getElem? h, by simp⟩
        simp only [occOf, List.countP_cons] at h0 this
        omega
      · have := ih h h0
        simp only [endOf, List.take_succ_cons, List.map_cons, List.sum_cons] at this ⊢
        omega

theorem endOf_pos {P : WorkLeft} {k : Nat} {p : Nat × Nat} (h : P[k]? = some p) (hp : 0 < p.2) : 0 < endOf P k := by
  induction P generalizing k with
  | nil => simp at h
  | cons q P ih =>
    cases k with
    | zero =>
      simp only [List.getElem?_cons_zero, Option.some.injEq] at h
      subst h
      simp [endOf]; omega
    | succ k =>
      have := ih (k := k) (by simpa using h)
      simp only [endOf, List.take_succ_cons, List.map_cons, List.sum_cons] at this ⊢
      omega

/-- The visit at which worker `w` of `nw` reads the last sample of its piece `k`, when the workers are visited
in turn and each visit reads a batch of `bs` samples. -/
def finishVisit (nw bs w : Nat) (P : WorkLeft) (k : Nat) : Nat := (endOf P k - 1) / bs * nw + w

/-- The conditions on the pieces `W` of the workers of a rank under which the simulation is exact: whole batches
only, one batch more for the first workers, and no batch that takes samples of three chunks. -/
structure Regular (nw bs : Nat) (W : List WorkLeft) (n : Nat → Nat) : Prop where
  len : W.length = nw
  pos : ∀ P ∈ W, ∀ p ∈ P, 0 < p.2
  whole : ∀ w P, W[w]? = some P → totalOf P = bs * n w
  balanced : ∀ w w', w < w' → w' < nw → n w' ≤ n w ∧ n w ≤ n w' + 1
  inner : ∀ P ∈ W, ∀ k p, 0 < k → k + 1 < P.length → P[k]? = some p → bs ≤ p.2 + 1

/-- Samples that worker `w` has read at visit `q * nw + r`, with `part` samples of the current batch. -/
def readBy (bs q r part w : Nat) : Nat := bs * (q + if w < r then 1 else 0) + if w = r then part else 0

/-- Samples of the current batch that have been taken already. -/
def partOf (bs : Nat) : Option Nat → Nat
  | none => 0
  | some c => bs - c

/-- What holds before every iteration. -/
structure SimExact (nw bs chunk : Nat) (W : List WorkLeft) (s : SimState) (q r : Nat) : Prop where
  idx : s.idx = q * nw + r
  lt : r < nw
  left : ∀ w P, W[w]? = some P → s.left[w]? = some (eat (readBy bs q r (partOf bs s.carry) w) P)
  carry : ∀ c, s.carry = some c → 0 < c ∧ c < bs ∧ ∃ P k, W[r]? = some P ∧ 0 < k ∧
    P.drop k ≠ [] ∧ s.left[r]? = some (P.drop k)
  len : s.left.length = nw
  occ : occ chunk s.left = s.shared

theorem lessHead_eat {n : Nat} {l : WorkLeft} (h : ∀ c s rest, l = (c, s) :: rest → n < s) : lessHead n l = eat n l := by
  cases l with
  | nil => rfl
  | cons p l =>
    obtain ⟨c, s⟩ := p
    simp only [lessHead, eat, if_pos (h c s l rfl)]

theorem headSizes_length (left : List WorkLeft) (h : ∀ l ∈ left, l ≠ []) : (headSizes left).length = left.length := by
  induction left with
  | nil => rfl
  | cons l left ih =>
    have hl := h l (by simp)
    cases l with
    | nil => exact absurd rfl hl
    | cons p l =>
      have := ih fun l hl => h l (by simp [hl])
      simp only [headSizes, List.filterMap_cons, List.head?_cons, Option.map_some, List.length_cons] at this ⊢
      omega

theorem minList_mem {l : List Nat} (h : l ≠ []) : minList l ∈ l := by
  cases l with
  | nil => exact absurd rfl h
  | cons a l =>
    have key : ∀ (l : List Nat) (m : Nat), l.foldl min m = m ∨ l.foldl min m ∈ l := by
      intro l
      induction l with
      | nil => intro m; exact Or.inl rfl
      | cons b l ih =>
        intro m
        rw [List.foldl_cons]
        rcases ih (min m b) with h | h
        · rw [h]
          rcases Nat.le_total m b with hmb | hmb
          · left; omega
          · right; rw [Nat.min_eq_right hmb]; simp
        · right; simp [h]
    rcases key l a with h | h
    · exact List.mem_cons.2 (Or.inl h)
    · exact List.mem_cons.2 (Or.inr h)

/-- The first part keeps the simulation exact. -/
theorem simPart1_exact {nw bs chunk : Nat} {W : List WorkLeft} {n : Nat → Nat} (hreg : Regular nw bs W n)
    (hbs : 0 < bs) {s s' : SimState} {q r : Nat} (h : SimExact nw bs chunk W s q r) (hs : simPart1 bs s = .ok s') :
    ∃ q', SimExact nw bs chunk W s' q' r ∧ q ≤ q' := by
  unfold simPart1 at hs
  cases hc : s.carry with
  | some c =>
    rw [hc] at hs
    cases hs
    exact ⟨q, h, Nat.le_refl _⟩
  | none =>
    rw [hc] at hs
    simp only at hs
    split at hs
    · cases hs
    rename_i hne
    rw [if_neg (Nat.pos_iff_ne_zero.1 hbs)] at hs
    simp only [Except.ok.injEq] at hs
    generalize hnb : minList (headSizes s.left) / bs - 1 = nb at hs
    by_cases h0 : nb = 0
    · subst h0
      have : s' = s := by
        rw [← hs]
        obtain ⟨a, b, c, d, e⟩ := s
        simp only at hc
        subst hc
        simp [lessHead_zero]
      rw [this]
      exact ⟨q, h, Nat.le_refl _⟩
    · have hdiv : (nb + 1) * bs ≤ minList (headSizes s.left) := by
        have : nb + 1 ≤ minList (headSizes s.left) / bs := by omega
        exact (Nat.le_div_iff_mul_le hbs).1 this
      have hmulsucc : (nb + 1) * bs = nb * bs + bs := Nat.succ_mul _ _
      have hpart : partOf bs s.carry = 0 := by rw [hc]; rfl
      have hleft : ∀ w P, W[w]? = some P → s.left[w]? = some (eat (bs * (q + if w < r then 1 else 0)) P) := by
        intro w P hw
        have := h.left w P hw
        rw [hpart] at this
        simpa [readBy] using this
      have hhead : ∀ w c z rest, s.left[w]? = some ((c, z) :: rest) → (nb + 1) * bs ≤ z :=
        fun w c z rest hw => Nat.le_trans hdiv (minList_le (mem_headSizes hw))
      -- nobody has run out
      have hall : ∀ w P, W[w]? = some P → eat (bs * (q + if w < r then 1 else 0)) P ≠ [] := by
        intro w P hw hnil
        have hwlt : w < nw := by rw [← hreg.len]; exact (List.getElem?_eq_some_iff.1 hw).1
        have htot := (eat_nil_iff _ P (hreg.pos P (List.mem_of_getElem? hw))).1 hnil
        rw [hreg.whole w P hw] at htot
        have hnw' : n w ≤ q + if w < r then 1 else 0 := Nat.le_of_mul_le_mul_left htot hbs
        have hmm := minList_mem hne
        unfold headSizes at hmm
        rw [List.mem_filterMap] at hmm
        obtain ⟨l, hl, hlh⟩ := hmm
        obtain ⟨w', hw'lt, hw'⟩ := List.getElem_of_mem hl
        have hw'n : w' < nw := by rw [← h.len]; exact hw'lt
        obtain ⟨P', hP'⟩ : ∃ P', W[w']? = some P' :=
          ⟨_, List.getElem?_eq_getElem (by rw [hreg.len]; exact hw'n)⟩
        have hl' := hleft w' P' hP'
        rw [List.getElem?_eq_getElem hw'lt, hw', Option.some.injEq] at hl'
        cases l with
        | nil => simp at hlh
        | cons p l =>
          obtain ⟨c, z⟩ := p
          have hz := hhead w' c z l (by rw [List.getElem?_eq_getElem hw'lt, hw'])
          have ht := eat_total hl'.symm
          rw [hreg.whole w' P' hP'] at ht
          have h2 : bs * (q + (if w' < r then 1 else 0) + 2) ≤ bs * n w' := by
            have h3 : 2 * bs ≤ (nb + 1) * bs := Nat.mul_le_mul_right bs (by omega)
            have h4 : bs * (q + (if w' < r then 1 else 0) + 2) = bs * (q + (if w' < r then 1 else 0)) + 2 * bs := by
              rw [Nat.mul_add, Nat.mul_comm bs 2]
            omega
          have h2 := Nat.le_of_mul_le_mul_left h2 hbs
          rcases Nat.lt_trichotomy w w' with hlt | heq | hgt
          · have := hreg.balanced w w' hlt hw'n
            split at h2 <;> split at hnw' <;> omega
          · subst heq
            omega
          · have := hreg.balanced w' w hgt hwlt
            split at h2 <;> split at hnw' <;> omega
      have hlen : (headSizes s.left).length = nw := by
        rw [headSizes_length, h.len]
        intro l hl
        obtain ⟨w, hwlt, hw⟩ := List.getElem_of_mem hl
        have hwn : w < W.length := by rw [hreg.len, ← h.len]; exact hwlt
        have hl' := hleft w _ (List.getElem?_eq_getElem hwn)
        rw [List.getElem?_eq_getElem hwlt, hw, Option.some.injEq] at hl'
        rw [hl']
        exact hall w _ (List.getElem?_eq_getElem hwn)
      refine ⟨q + nb, ?_, by omega⟩
      rw [← hs]
      refine ⟨?_, h.lt, ?_, ?_, by simp [h.len], ?_⟩
      · simp only [hlen, h.idx, Nat.add_mul]; omega
      · intro w P hw
        simp only [List.getElem?_map, hleft w P hw, Option.map_some, Option.some.injEq, partOf]
        rw [lessHead_eat, eat_eat]
        · congr 1
          simp only [readBy, ite_self, Nat.add_zero]
          rw [show q + nb + (if w < r then 1 else 0) = (q + if w < r then 1 else 0) + nb by omega,
            Nat.mul_add bs _ nb, Nat.mul_comm nb bs]
        · intro c z rest hz
          have := hhead w c z rest (by rw [hleft w P hw, hz])
          omega
      · intro c hcc
        simp at hcc
      · simp only [occ, List.map_map]
        rw [← h.occ]
        unfold occ
        congr 1
        refine List.map_congr_left fun l _ => ?_
        exact occOf_lessHead _ _ _

theorem eat_nonempty_of_partial {bs q e : Nat} {P : WorkLeft} (hpos : ∀ p ∈ P, 0 < p.2) (m : Nat)
    (hm : totalOf P = bs * m) (h1 : bs * q < e) (h2 : e < bs * (q + 1)) (h3 : e ≤ totalOf P) : eat e P ≠ [] := by
  intro hnil
  have := (eat_nil_iff e P hpos).1 hnil
  have he : e = bs * m := by omega
  rw [he] at h1 h2
  have h4 := Nat.lt_of_mul_lt_mul_left h1
  have h5 := Nat.lt_of_mul_lt_mul_left h2
  omega

/-- The outcome of the loop: the chunk was finished last at visit `i`. -/
def LastAt (nw bs chunk : Nat) (W : List WorkLeft) (i : Nat) : Prop :=
  (∃ P k s, W[i % nw]? = some P ∧ P[k]? = some (chunk, s) ∧ finishVisit nw bs (i % nw) P k = i) ∧
  ∀ w P k s, W[w]? = some P → P[k]? = some (chunk, s) → finishVisit nw bs w P k ≤ i

/-- What is claimed of the outcome of an iteration. -/
def SimOut.Exact (nw bs chunk : Nat) (W : List WorkLeft) : SimOut → Prop
  | .done i _ => LastAt nw bs chunk W i
  | .more s' => ∃ q' r', SimExact nw bs chunk W s' q' r'

/-- The second part keeps the simulation exact, and ends it at the last visit to the chunk. -/
theorem simPart2_exact {nw bs chunk : Nat} {W : List WorkLeft} {n : Nat → Nat} (hreg : Regular nw bs W n)
    (hnw : 0 < nw) (hbs : 0 < bs) {s : SimState} {q r : Nat} (h : SimExact nw bs chunk W s q r) {o : SimOut}
    (ho : simPart2 nw bs chunk s = .ok o) :
    o.Exact nw bs chunk W := by
  have hmod : s.idx % nw = r := by
    rw [h.idx, Nat.mul_comm, Nat.mul_add_mod, Nat.mod_eq_of_lt h.lt]
  have hrW : r < W.length := by rw [hreg.len]; exact h.lt
  obtain ⟨P, hP⟩ : ∃ P, W[r]? = some P := ⟨_, List.getElem?_eq_getElem hrW⟩
  have hposP := hreg.pos P (List.mem_of_getElem? hP)
  have hwhole := hreg.whole r P hP
  have hleftr := h.left r P hP
  have hrlt : r < s.left.length := by rw [h.len]; exact h.lt
  have hread : readBy bs q r (partOf bs s.carry) r = bs * q + partOf bs s.carry := by
    simp [readBy]
  rw [hread] at hleftr
  -- the next visit
  have hnext : ∃ q' r', s.idx + 1 = q' * nw + r' ∧ r' < nw ∧ ∀ w, w < nw → readBy bs q' r' 0 w =
      if w = r then bs * (q + 1) else readBy bs q r (partOf bs s.carry) w := by
    by_cases hr1 : r + 1 < nw
    · refine ⟨q, r + 1, by rw [h.idx]; omega, hr1, ?_⟩
      intro w hw
      unfold readBy
      by_cases hwr : w = r
      · subst hwr
        simp
      · rw [if_neg hwr]
        by_cases hlt : w < r
        · have : w < r + 1 := by omega
          have hne : ¬ w = r + 1 := by omega
          simp [hlt, this, hne, hwr]
        · have : ¬ w < r + 1 := by omega
          simp [hlt, this, hwr]
    · have hlast : r + 1 = nw := by have := h.lt; omega
      refine ⟨q + 1, 0, by rw [h.idx, Nat.succ_mul]; omega, hnw, ?_⟩
      intro w hw
      unfold readBy
      by_cases hwr : w = r
      · subst hwr
        simp
      · rw [if_neg hwr]
        have : w < r := by omega
        simp [this, hwr]
  obtain ⟨q', r', hidx', hr'lt, hreadnext⟩ := hnext
  unfold simPart2 at ho
  rw [if_neg (Nat.pos_iff_ne_zero.1 hnw), hmod, hleftr] at ho
  generalize hl : eat (bs * q + partOf bs s.carry) P = l at *
  -- a state after the batch is complete
  have hstep : ∀ s' : SimState, s'.idx = s.idx + 1 → s'.carry = none → s'.left = s.left.set r (eat (bs * (q + 1)) P) →
      occ chunk s'.left = s'.shared → SimExact nw bs chunk W s' q' r' := by
    intro s' h1 h2 h3 h4
    refine ⟨by rw [h1, hidx'], hr'lt, ?_, by rw [h2]; simp, by rw [h3]; simp [h.len], h4⟩
    intro w P' hw
    have hwlt : w < nw := by rw [← hreg.len]; exact (List.getElem?_eq_some_iff.1 hw).1
    rw [h2, h3]
    simp only [partOf]
    rw [hreadnext w hwlt]
    by_cases hwr : w = r
    · subst hwr
      rw [hP] at hw
      cases hw
      rw [List.getElem?_set_self hrlt, if_pos rfl]
    · rw [List.getElem?_set_ne (Ne.symm hwr), if_neg hwr]
      exact h.left w P' hw
  cases l with
  | nil =>
    simp only [Except.ok.injEq] at ho
    subst ho
    have hnone : s.carry = none := by
      cases hc : s.carry with
      | none => rfl
      | some c =>
        obtain ⟨_, _, P', k, hP', _, hne, hlk⟩ := h.carry c hc
        rw [hleftr, Option.some.injEq] at hlk
        exact absurd hlk.symm hne
    refine ⟨q', r', hstep _ rfl hnone ?_ h.occ⟩
    simp only
    have : eat (bs * (q + 1)) P = [] := by
      have h1 := (eat_nil_iff _ P hposP).1 hl
      refine (eat_nil_iff _ P hposP).2 (Nat.le_trans h1 ?_)
      rw [hnone]
      simp only [partOf, Nat.add_zero]
      exact Nat.mul_le_mul_left _ (by omega)
    rw [this]
    refine (List.ext_getElem? fun i => ?_)
    by_cases hi : i = r
    · subst hi
      rw [List.getElem?_set_self hrlt, hleftr]
    · rw [List.getElem?_set_ne (Ne.symm hi)]
  | cons p rest =>
    obtain ⟨c, z⟩ := p
    simp only at ho
    obtain ⟨k, sz, hk, hend, hzpos, hzle, hrest⟩ := eat_cons hl
    have hrem : partOf bs s.carry + s.carry.getD bs = bs := by
      cases hc : s.carry with
      | none => simp [partOf]
      | some x =>
        have := (h.carry x hc).2.1
        simp only [partOf, Option.getD_some]; omega
    have hremle : s.carry.getD bs ≤ bs := by omega
    have hpartlt : partOf bs s.carry < bs := by
      cases hc : s.carry with
      | none => simpa [partOf] using hbs
      | some x => have := (h.carry x hc).1; simp only [partOf]; omega
    have hmul : bs * (q + 1) = bs * q + bs := Nat.mul_succ _ _
    have hm0 : q * bs = bs * q := Nat.mul_comm _ _
    have hm1 : (q + 1) * bs = bs * q + bs := by rw [Nat.mul_comm, hmul]
    generalize hg : s.carry.getD bs = remover at *
    by_cases hz : z > remover
    · rw [if_pos hz] at ho
      simp only [Except.ok.injEq] at ho
      subst ho
      refine ⟨q', r', hstep _ rfl rfl ?_ ?_⟩
      · have hm := eat_more hl hz
        rw [show bs * q + partOf bs s.carry + remover = bs * (q + 1) by omega] at hm
        rw [hm]
      · have hsum := sum_map_set (occOf chunk) s.left r ((c, z - remover) :: rest) _ hleftr
        have h2 := h.occ
        unfold occ at h2 ⊢
        simp only [occOf, List.countP_cons] at hsum h2 ⊢
        omega
    · rw [if_neg hz] at ho
      have hsum := sum_map_set (occOf chunk) s.left r rest _ hleftr
      have hoccs := h.occ
      have hpop := eat_pop hl hposP
      by_cases hd : (if c = chunk then s.shared - 1 else s.shared) = 0 ∧ c = chunk
      · rw [if_pos hd] at ho
        simp only [Except.ok.injEq] at ho
        subst ho
        obtain ⟨hd1, rfl⟩ := hd
        simp only [if_true] at hd1
        have hzero : occ c (s.left.set r rest) = 0 := by
          have hcons : occOf c ((c, z) :: rest) = occOf c rest + 1 := by simp [occOf]
          unfold occ at hoccs ⊢
          omega
        refine ⟨⟨P, k, sz, by rw [hmod]; exact hP, hk, ?_⟩, ?_⟩
        · unfold finishVisit
          rw [hmod, hend, h.idx]
          have hq : (bs * q + partOf bs s.carry + z - 1) / bs = q := by
            have h1 : q ≤ (bs * q + partOf bs s.carry + z - 1) / bs :=
              (Nat.le_div_iff_mul_le hbs).2 (by omega)
            have h2 : (bs * q + partOf bs s.carry + z - 1) / bs < q + 1 :=
              (Nat.div_lt_iff_lt_mul hbs).2 (by omega)
            omega
          rw [hq]
        · intro w P' k' s' hw hk'
          have hwlt : w < nw := by rw [← hreg.len]; exact (List.getElem?_eq_some_iff.1 hw).1
          have hpos' := hreg.pos P' (List.mem_of_getElem? hw)
          have hep := endOf_pos hk' (hpos' _ (List.mem_of_getElem? hk'))
          have hoccw : ∀ l, (s.left.set r rest)[w]? = some l → occOf c l = 0 := by
            intro l hl'
            unfold occ at hzero
            have := List.sum_eq_zero_iff_forall_eq_nat.1 hzero (occOf c l)
              (List.mem_map.2 ⟨l, List.mem_of_getElem? hl', rfl⟩)
            exact this
          unfold finishVisit
          rw [h.idx]
          by_cases hwr : w = r
          · subst hwr
            rw [hP] at hw
            cases hw
            have h0 := hoccw rest (List.getElem?_set_self hrlt)
            rw [← hpop] at h0
            have hle := occOf_eat hk' h0
            have : (endOf P k' - 1) / bs ≤ q := by
              have h2 : (endOf P k' - 1) / bs < q + 1 :=
                (Nat.div_lt_iff_lt_mul hbs).2 (by omega)
              omega
            have := Nat.mul_le_mul_right nw this
            omega
          · have h0 := hoccw _ (by rw [List.getElem?_set_ne (Ne.symm hwr)]; exact h.left w P' hw)
            have hle := occOf_eat hk' h0
            have hrd : readBy bs q r (partOf bs s.carry) w = bs * (q + if w < r then 1 else 0) := by
              simp [readBy, hwr]
            rw [hrd] at hle
            by_cases hlt : w < r
            · rw [if_pos hlt] at hle
              have : (endOf P' k' - 1) / bs ≤ q := by
                have h2 : (endOf P' k' - 1) / bs < q + 1 :=
                  (Nat.div_lt_iff_lt_mul hbs).2 (by omega)
                omega
              have := Nat.mul_le_mul_right nw this
              omega
            · rw [if_neg hlt, Nat.add_zero] at hle
              have : (endOf P' k' - 1) / bs + 1 ≤ q := by
                have h2 : (endOf P' k' - 1) / bs < q :=
                  (Nat.div_lt_iff_lt_mul hbs).2 (by omega)
                omega
              have := Nat.mul_le_mul_right nw this
              rw [Nat.succ_mul] at this
              omega
      · rw [if_neg hd] at ho
        simp only [Except.ok.injEq] at ho
        subst ho
        have hocc' : occ chunk (s.left.set r rest) = if c = chunk then s.shared - 1 else s.shared := by
          unfold occ at hoccs ⊢
          simp only [occOf, List.countP_cons] at hsum hoccs ⊢
          by_cases hcc : c = chunk
          · simp [hcc] at hsum ⊢; omega
          · simp [hcc] at hsum ⊢; omega
        by_cases hcar : carryAfterPop bs z remover s.carry = none
        · -- the batch is complete
          have hfull : partOf bs s.carry + z = bs := by
            cases hc : s.carry with
            | none =>
              rw [hc] at hg hcar
              simp only [Option.getD_none] at hg
              subst hg
              unfold carryAfterPop at hcar
              simp only [ne_eq, not_true, if_false] at hcar
              split at hcar
              · cases hcar
              · simp only [partOf]; omega
            | some x =>
              obtain ⟨hx1, hx2, P', k0, hP', hk0, _, hlk⟩ := h.carry x hc
              rw [hP] at hP'
              cases hP'
              rw [hc] at hg
              simp only [Option.getD_some] at hg
              subst hg
              simp only [partOf]
              rw [hleftr, Option.some.injEq] at hlk
              have hk0lt : k0 < P.length := by
                refine Classical.byContradiction fun hcc => ?_
                rw [List.drop_of_length_le (by omega)] at hlk
                cases hlk
              rw [List.drop_eq_getElem_cons hk0lt, List.cons.injEq] at hlk
              obtain ⟨hlk1, hlk2⟩ := hlk
              by_cases hin : k0 + 1 < P.length
              · have := hreg.inner P (List.mem_of_getElem? hP) k0 _ hk0 hin (List.getElem?_eq_getElem hk0lt)
                rw [← hlk1] at this
                simp only at this
                omega
              · have hnil : rest = [] := by rw [hlk2]; exact List.drop_of_length_le (by omega)
                have ht := eat_total hl
                rw [hnil, hwhole, hc] at ht
                simp only [totalOf, List.map_nil, List.sum_nil, partOf, Nat.add_zero] at ht
                have h1 : bs * q < bs * n r := by omega
                have h1 := Nat.lt_of_mul_lt_mul_left h1
                have h2 := Nat.mul_le_mul_left bs h1
                rw [Nat.mul_succ] at h2
                omega
          refine ⟨q', r', hstep _ (by simp [hcar]) hcar ?_ hocc'⟩
          simp only
          rw [show bs * (q + 1) = bs * q + partOf bs s.carry + z by omega, hpop]
        · -- the batch continues in the next piece
          obtain ⟨x, hx⟩ : ∃ x, carryAfterPop bs z remover s.carry = some x := by
            cases hh : carryAfterPop bs z remover s.carry with
            | none => exact absurd hh hcar
            | some x => exact ⟨x, rfl⟩
          have hcnone : s.carry = none ∧ z < bs ∧ x = bs - z := by
            cases hc : s.carry with
            | none =>
              rw [hc] at hg hx
              simp only [Option.getD_none] at hg
              subst hg
              unfold carryAfterPop at hx
              simp only [ne_eq, not_true, if_false] at hx
              split at hx
              · cases hx; exact ⟨rfl, by omega, rfl⟩
              · cases hx
            | some y =>
              have := (h.carry y hc).2.1
              rw [hc] at hg hx
              simp only [Option.getD_some] at hg
              subst hg
              unfold carryAfterPop at hx
              rw [if_pos (by omega)] at hx
              cases hx
          obtain ⟨hc, hzbs, rfl⟩ := hcnone
          rw [hc] at hpop hl
          simp only [partOf, Nat.add_zero] at hpop hl
          refine ⟨q, r, ⟨by simp [hx, h.idx], h.lt, ?_, ?_, by simp [h.len], hocc'⟩⟩
          · intro w P' hw
            simp only [hx, partOf]
            by_cases hwr : w = r
            · subst hwr
              rw [hP] at hw
              cases hw
              rw [List.getElem?_set_self hrlt]
              have : readBy bs q w (bs - (bs - z)) w = bs * q + z := by
                simp [readBy]; omega
              rw [this, hpop]
            · rw [List.getElem?_set_ne (Ne.symm hwr)]
              have := h.left w P' hw
              simpa [readBy, hwr] using this
          · intro y hy
            simp only [hx, Option.some.injEq] at hy
            subst hy
            refine ⟨by omega, by omega, P, k + 1, hP, by omega, ?_, ?_⟩
            · rw [← hrest, ← hpop]
              refine eat_nonempty_of_partial hposP (n r) hwhole (q := q) (by omega) (by omega) ?_
              have := eat_total hl
              omega
            · simp only [List.getElem?_set_self hrlt, hrest]

/-- The loop finds the last visit to the chunk. -/
theorem simulate_exact {nw bs chunk : Nat} {W : List WorkLeft} {n : Nat → Nat} (hreg : Regular nw bs W n)
    (hnw : 0 < nw) (hbs : 0 < bs) (fuel : Nat) : ∀ (s : SimState) (q r i c : Nat), SimExact nw bs chunk W s q r →
      simulate nw bs chunk fuel s = some (.ok (i, c)) → LastAt nw bs chunk W i := by
  induction fuel with
  | zero => intro s q r i c _ hs; cases hs
  | succ fuel ih =>
    intro s q r i c h hs
    simp only [simulate, simStep] at hs
    cases h1 : simPart1 bs s with
    | error e => rw [h1] at hs; cases hs
    | ok s1 =>
      rw [h1] at hs
      simp only at hs
      obtain ⟨q1, hex1, _⟩ := simPart1_exact hreg hbs h h1
      cases h2 : simPart2 nw bs chunk s1 with
      | error e => rw [h2] at hs; cases hs
      | ok o =>
        rw [h2] at hs
        have := simPart2_exact hreg hnw hbs hex1 h2
        cases o with
        | done i' c' =>
          simp only [Option.some.injEq, Except.ok.injEq, Prod.mk.injEq] at hs
          obtain ⟨rfl, rfl⟩ := hs
          exact this
        | more s2 =>
          obtain ⟨q2, r2, hex2⟩ := this
          exact ih s2 q2 r2 i c hex2 hs

end LitData
