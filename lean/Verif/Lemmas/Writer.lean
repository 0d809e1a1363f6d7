import Verif.Model.Writer
import Verif.Lemmas.Sorted

/-! Invariant of the writer when indices come in increasing order. -/

namespace LitData

/-- Items numbered from `s`. -/
def enum (s : Nat) : List WItem → List (Nat × WItem)
  | [] => []
  | x :: xs => (s, x) :: enum (s + 1) xs

theorem enum_append (s : Nat) (xs ys : List WItem) : enum s (xs ++ ys) = enum s xs ++ enum (s + xs.length) ys := by
  induction xs generalizing s with
  | nil => simp [enum]
  | cons x xs ih => simp [enum, ih]; congr 1; omega

theorem enum_keys (s : Nat) (xs : List WItem) : (enum s xs).map (·.1) = List.range' s xs.length := by
  induction xs generalizing s with
  | nil => rfl
  | cons x xs ih => simp [enum, ih, List.range'_succ]

theorem enum_length (s : Nat) (xs : List WItem) : (enum s xs).length = xs.length := by
  rw [← List.length_map (f := (·.1)), enum_keys, List.length_range']

theorem bufGet_enum (s : Nat) (xs : List WItem) (i : Nat) :
    bufGet (enum s xs) i = if s ≤ i then xs[i - s]? else none := by
  induction xs generalizing s with
  | nil => simp [enum, bufGet]
  | cons x xs ih =>
    unfold bufGet at ih ⊢
    simp only [enum, List.find?_cons]
    by_cases h : s = i
    · subst h; simp
    · have h1 : (s == i) = false := by simpa using h
      simp only [h1]
      rw [ih (s + 1)]
      by_cases h2 : s + 1 ≤ i
      · rw [if_pos h2, if_pos (by omega)]
        have : i - s = (i - (s + 1)) + 1 := by omega
        rw [this]; simp
      · rw [if_neg h2, if_neg (by omega)]

theorem enum_filter_ne (s i : Nat) (xs : List WItem) (h : i < s) :
    (enum s xs).filter (fun e => e.1 != i) = enum s xs := by
  rw [List.filter_eq_self]
  intro e he
  have : e.1 ∈ (enum s xs).map (·.1) := List.mem_map_of_mem he
  rw [enum_keys, List.mem_range'_1] at this
  simp; omega

theorem bufPop_enum (s : Nat) (x : WItem) (xs : List WItem) :
    bufPop (enum s (x :: xs)) s = .ok (x, enum (s + 1) xs) := by
  unfold bufPop
  rw [bufGet_enum]
  simp only [Nat.le_refl, if_true, Nat.sub_self, List.getElem?_cons_zero]
  simp only [enum, List.filter_cons, bne_self_eq_false, Bool.false_eq_true, if_false]
  rw [enum_filter_ne _ _ _ (by omega)]

theorem bufPopAll_enum (s k : Nat) (xs : List WItem) (h : k ≤ xs.length) :
    bufPopAll (enum s xs) (List.range' s k) = .ok (xs.take k, enum (s + k) (xs.drop k)) := by
  induction k generalizing s xs with
  | zero => simp [bufPopAll]
  | succ k ih =>
    cases xs with
    | nil => simp at h
    | cons x xs =>
      simp only [List.range'_succ, bufPopAll, bufPop_enum, bind, Except.bind]
      rw [ih (s + 1) xs (by simpa using h)]
      simp only [pure, Except.pure, List.take_succ_cons, List.drop_succ_cons]
      rw [show s + 1 + k = s + (k + 1) by omega]

/-- Total bytes. -/
def totBytes (xs : List WItem) : Nat := (xs.map WItem.bytes).sum
/-- Total count. -/
def totCount (xs : List WItem) : Nat := (xs.map WItem.count).sum

/-- Over one of the limits. -/
def Over (cfg : WriterCfg) (xs : List WItem) : Prop := overLimit cfg (totBytes xs) (totCount xs) = true

theorem totBytes_append (xs ys : List WItem) : totBytes (xs ++ ys) = totBytes xs + totBytes ys := by
  simp [totBytes]
theorem totCount_append (xs ys : List WItem) : totCount (xs ++ ys) = totCount xs + totCount ys := by
  simp [totCount]

theorem overLimit_mono (cfg : WriterCfg) (a b a' b' : Nat) (h1 : a ≤ a') (h2 : b ≤ b')
    (h : overLimit cfg a b = true) : overLimit cfg a' b' = true := by
  unfold overLimit at *
  simp only [Bool.or_eq_true, Bool.and_eq_true, bne_iff_ne, ne_eq, decide_eq_true_eq] at *
  omega

theorem Over.mono {cfg : WriterCfg} {xs : List WItem} (ys : List WItem) (h : Over cfg xs) : Over cfg (xs ++ ys) := by
  unfold Over at *
  rw [totBytes_append, totCount_append]
  exact overLimit_mono cfg _ _ _ _ (Nat.le_add_right _ _) (Nat.le_add_right _ _) h

theorem WItem.count_pos (x : WItem) : 1 ≤ x.count := by
  unfold WItem.count
  split
  · split <;> omega
  · omega

theorem length_le_totCount (xs : List WItem) : xs.length ≤ totCount xs := by
  induction xs with
  | nil => simp [totCount]
  | cons x xs ih =>
    have := x.count_pos
    simp only [totCount, List.map_cons, List.sum_cons, List.length_cons] at ih ⊢
    omega

theorem length_le_of_not_over {cfg : WriterCfg} {xs : List WItem} (h : ¬ Over cfg xs) (hc : cfg.chunkSize ≠ 0) :
    xs.length ≤ cfg.chunkSize := by
  have := length_le_totCount xs
  unfold Over overLimit at h
  simp only [Bool.or_eq_true, Bool.and_eq_true, bne_iff_ne, ne_eq, decide_eq_true_eq] at h
  omega

/-- The chunks written so far, when `pend` is still in memory: none is empty, each is within the limits
or has a single item, and each was closed because the next item would not have fitted. -/
structure ChunksOk (cfg : WriterCfg) (cs : List (List WItem)) (pend : List WItem) : Prop where
  ne : ∀ c ∈ cs, c ≠ []
  fits : ∀ c ∈ cs, ¬ Over cfg c ∨ ∃ x, c = [x]
  full : ∀ l c r, cs = l ++ c :: r →
    (∀ y, (r.flatten ++ pend).head? = some y → Over cfg (c ++ [y])) ∧ (r.flatten ++ pend = [] → Over cfg c)

theorem ChunksOk.push {cfg : WriterCfg} {cs : List (List WItem)} {pend : List WItem} (h : ChunksOk cfg cs pend)
    (x : WItem) : ChunksOk cfg cs (pend ++ [x]) := by
  refine ⟨h.ne, h.fits, ?_⟩
  intro l c r e
  obtain ⟨h1, h2⟩ := h.full l c r e
  constructor
  · intro y hy
    rw [← List.append_assoc] at hy
    cases hrp : r.flatten ++ pend with
    | nil => exact (h2 hrp).mono _
    | cons z zs => rw [hrp] at hy h1; exact h1 y (by simpa using hy)
  · intro e2; simp at e2

theorem ChunksOk.close {cfg : WriterCfg} {cs : List (List WItem)} {c rest : List WItem}
    (h : ChunksOk cfg cs (c ++ rest)) (hne : c ≠ []) (hfit : ¬ Over cfg c ∨ ∃ x, c = [x])
    (hfull : ∀ y, rest.head? = some y → Over cfg (c ++ [y])) (hend : rest = [] → Over cfg c) :
    ChunksOk cfg (cs ++ [c]) rest := by
  refine ⟨?_, ?_, ?_⟩
  · intro d hd
    rcases List.mem_append.1 hd with hd | hd
    · exact h.ne d hd
    · simp only [List.mem_singleton] at hd; exact hd ▸ hne
  · intro d hd
    rcases List.mem_append.1 hd with hd | hd
    · exact h.fits d hd
    · simp only [List.mem_singleton] at hd; exact hd ▸ hfit
  · intro l d r e
    rcases List.eq_nil_or_concat r with rfl | ⟨r', z, rfl⟩
    · have := List.append_inj' e rfl
      simp only [List.cons.injEq, and_true] at this
      obtain ⟨rfl, rfl⟩ := this
      simpa using ⟨hfull, hend⟩
    · rw [List.concat_eq_append, show l ++ d :: (r' ++ [z]) = (l ++ d :: r') ++ [z] by simp] at e
      have := List.append_inj' e rfl
      simp only [List.cons.injEq, and_true] at this
      obtain ⟨e1, rfl⟩ := this
      have := h.full l d r' e1
      rw [List.concat_eq_append]
      simpa [List.flatten_append, List.append_assoc] using this

/-- Invariant of the writer after the items `xs` were added at indices `a, a+1, ...`. -/
structure WInv (cfg : WriterCfg) (a : Nat) (xs : List WItem) (s : WriterState) (pend : List WItem) : Prop where
  all : xs = s.chunks.flatten ++ pend
  buf : s.buf = enum (a + s.chunks.flatten.length) pend
  ok : ChunksOk cfg s.chunks pend
  mode :
    (s.minIdx = none ∧ s.maxIdx = none ∧ pend.length ≤ 1) ∨
    (s.minIdx = some (a + s.chunks.flatten.length) ∧ pend ≠ [] ∧
      s.maxIdx = some (a + s.chunks.flatten.length + pend.length) ∧
      s.perBytes = totBytes pend ∧ s.perItems = totCount pend ∧ ¬ Over cfg pend) ∨
    (s.minIdx = some (a + s.chunks.flatten.length) ∧ ∃ m x,
      s.maxIdx = some (a + s.chunks.flatten.length + m) ∧ pend[m]? = some x ∧ x.bytes = 0)

theorem take_succ_tot (pend : List WItem) (k : Nat) (x : WItem) (h : pend[k]? = some x) :
    totBytes (pend.take (k + 1)) = totBytes (pend.take k) + x.bytes ∧
    totCount (pend.take (k + 1)) = totCount (pend.take k) + x.count := by
  rw [List.take_add_one, h, totBytes_append, totCount_append]
  simp [totBytes, totCount]

theorem scan_spec (cfg : WriterCfg) (s : WriterState) (b : Nat) (pend : List WItem) (hb : s.buf = enum b pend)
    (fuel k : Nat) (hf : pend.length < fuel + k) (hk : k ≤ pend.length) (hov : ¬ Over cfg (pend.take k)) :
    (∃ m, k ≤ m ∧ m ≤ pend.length ∧ ¬ Over cfg (pend.take m) ∧
      (m = pend.length ∨ ∃ x, pend[m]? = some x ∧ x.bytes = 0) ∧
      scan cfg s fuel (b + k) (totBytes (pend.take k)) (totCount (pend.take k)) =
        (false, { s with perBytes := totBytes (pend.take m), perItems := totCount (pend.take m),
                         maxIdx := some (b + m) })) ∨
    (∃ m, k ≤ m ∧ m < pend.length ∧ ¬ Over cfg (pend.take m) ∧ Over cfg (pend.take (m + 1)) ∧
      scan cfg s fuel (b + k) (totBytes (pend.take k)) (totCount (pend.take k)) =
        (true, { s with maxIdx := some (b + m) })) := by
  induction fuel generalizing k with
  | zero => omega
  | succ fuel ih =>
    unfold scan
    have hg : bufGet s.buf (b + k) = pend[k]? := by
      rw [hb, bufGet_enum, if_pos (by omega), show b + k - b = k by omega]
    rw [hg]
    cases hx : pend[k]? with
    | none =>
      left
      have : pend.length ≤ k := by
        rcases Nat.lt_or_ge k pend.length with h | h
        · rw [List.getElem?_eq_getElem h] at hx; simp at hx
        · exact h
      exact ⟨k, Nat.le_refl _, hk, hov, Or.inl (by omega), rfl⟩
    | some x =>
      have hkl : k < pend.length := by
        rcases Nat.lt_or_ge k pend.length with h | h
        · exact h
        · rw [List.getElem?_eq_none h] at hx; simp at hx
      simp only
      by_cases h0 : x.bytes = 0
      · left
        refine ⟨k, Nat.le_refl _, hk, hov, Or.inr ⟨x, hx, h0⟩, ?_⟩
        rw [if_neg (by simpa using h0)]
      · rw [if_pos h0]
        obtain ⟨e1, e2⟩ := take_succ_tot pend k x hx
        rw [← e1, ← e2]
        by_cases ho : overLimit cfg (totBytes (pend.take (k + 1))) (totCount (pend.take (k + 1))) = true
        · right
          exact ⟨k, Nat.le_refl _, hkl, hov, ho, by rw [if_pos ho]⟩
        · rw [if_neg ho]
          rcases ih (k + 1) (by omega) (by omega) ho with ⟨m, h1, h2⟩ | ⟨m, h1, h2⟩
          · exact Or.inl ⟨m, by omega, h2⟩
          · exact Or.inr ⟨m, by omega, h2⟩

/-- Closing a chunk of the first `m` items (or of one item when the first one is already too big). -/
theorem writeChunk_spec (cfg : WriterCfg) (s : WriterState) (b m : Nat) (pend : List WItem)
    (hb : s.buf = enum b pend) (hmin : s.minIdx = some b) (hm : m < pend.length)
    (hov : ¬ Over cfg (pend.take m)) :
    writeChunk cfg { s with maxIdx := some (b + m) } false =
      .ok { s with maxIdx := some (b + m), buf := enum (b + max m 1) (pend.drop (max m 1)),
                   chunks := s.chunks ++ [pend.take (max m 1)] } := by
  have hne : pend ≠ [] := by intro h; rw [h] at hm; simp at hm
  have hitems : chunkItems { s with maxIdx := some (b + m) } false =
      .ok (pend.take (max m 1), enum (b + max m 1) (pend.drop (max m 1))) := by
    unfold chunkItems
    simp only [Bool.false_eq_true, if_false, hmin, hb]
    by_cases h0 : m = 0
    · subst h0
      rw [if_pos (by omega)]
      cases pend with
      | nil => exact absurd rfl hne
      | cons x xs =>
        simp only [Nat.add_zero, bufPop_enum, bind, Except.bind, Nat.sub_self, List.range'_zero, bufPopAll]
        rfl
    · rw [if_neg (by omega), show b + m - b = m by omega, bufPopAll_enum _ _ _ (by omega),
        show max m 1 = m by omega]
  unfold writeChunk
  rw [hitems]
  simp only [bind, Except.bind]
  have hlen : (pend.take (max m 1)).length = max m 1 := by rw [List.length_take]; omega
  rw [if_neg (by omega), if_neg]
  intro ⟨h1, h2⟩
  rw [hlen] at h2
  by_cases h0 : m = 0
  · subst h0; simp at h2; omega
  · have := length_le_of_not_over hov h1
    rw [List.length_take] at this
    omega

/-- One flush test on a buffer whose first `k` items are known to fit. `hsmall` says that at most one
item is left in memory if a chunk is closed. -/
theorem flush_spec (cfg : WriterCfg) (a : Nat) (xs : List WItem) (s : WriterState) (pend : List WItem) (k : Nat)
    (hall : xs = s.chunks.flatten ++ pend) (hb : s.buf = enum (a + s.chunks.flatten.length) pend)
    (hok : ChunksOk cfg s.chunks pend) (hmin : s.minIdx = some (a + s.chunks.flatten.length))
    (hmax : s.maxIdx = some (a + s.chunks.flatten.length + k))
    (hpb : s.perBytes = totBytes (pend.take k)) (hpi : s.perItems = totCount (pend.take k))
    (hov : ¬ Over cfg (pend.take k)) (hk : k < pend.length) (hsmall : pend.length ≤ max k 1 + 1) :
    ∃ s' pend', flushIf cfg (shouldWrite cfg s) = .ok s' ∧ WInv cfg a xs s' pend' := by
  generalize hB : a + s.chunks.flatten.length = b at *
  have hne : pend ≠ [] := by intro h; rw [h] at hk; simp at hk
  have hbne : s.buf.isEmpty = false := by
    rw [hb]; cases pend with
    | nil => exact absurd rfl hne
    | cons x xs => rfl
  have hsw : shouldWrite cfg s = scan cfg s (pend.length + 1) (b + k) (totBytes (pend.take k)) (totCount (pend.take k)) := by
    unfold shouldWrite
    rw [hbne, hmax, hpb, hpi]
    simp only [Bool.false_eq_true, if_false]
    rw [hb, enum_length]
  rw [hsw]
  rcases scan_spec cfg s b pend hb (pend.length + 1) k (by omega) (by omega) hov with
    ⟨m, h1, h2, h3, h4, h5⟩ | ⟨m, h1, h2, h3, h4, h5⟩
  · rw [h5]
    refine ⟨_, pend, rfl, ⟨hall, by show s.buf = enum (a + s.chunks.flatten.length) pend; rw [hB]; exact hb, hok, ?_⟩⟩
    simp only [hB]
    rcases h4 with h4 | ⟨x, hx, hx0⟩
    · right; left
      subst h4
      rw [List.take_length] at h3 ⊢
      exact ⟨hmin, hne, rfl, rfl, rfl, h3⟩
    · right; right
      exact ⟨hmin, m, x, rfl, hx, hx0⟩
  · rw [h5]
    unfold flushIf
    simp only [if_true]
    rw [writeChunk_spec cfg s b m pend hb hmin h2 h3]
    simp only [bind, Except.bind, pure, Except.pure]
    have hM : max m 1 ≤ pend.length := by omega
    refine ⟨_, pend.drop (max m 1), rfl, ⟨?_, ?_, ?_, ?_⟩⟩
    · rw [hall]
      simp only [List.flatten_append, List.flatten_cons, List.flatten_nil, List.append_nil, List.append_assoc]
      rw [List.take_append_drop]
    · simp only [List.flatten_append, List.flatten_cons, List.flatten_nil, List.append_nil, List.length_append,
        List.length_take, Nat.min_eq_left hM]
      rw [← hB, Nat.add_assoc]
    · apply ChunksOk.close
      · rw [List.take_append_drop]; exact hok
      · intro h
        have := congrArg List.length h
        rw [List.length_take] at this
        simp only [List.length_nil] at this
        omega
      · by_cases h0 : m = 0
        · right
          subst h0
          cases pend with
          | nil => exact absurd rfl hne
          | cons x xs => exact ⟨x, by simp⟩
        · left
          rw [show max m 1 = m by omega]; exact h3
      · intro y hy
        by_cases h0 : m = 0
        · subst h0
          exact Over.mono _ h4
        · rw [show max m 1 = m by omega] at hy ⊢
          rw [List.head?_drop] at hy
          rw [List.take_add_one, hy] at h4
          exact h4
      · intro hnil
        rw [List.drop_eq_nil_iff] at hnil
        have : m = 0 := by omega
        subst this
        exact h4
    · left
      refine ⟨rfl, rfl, ?_⟩
      rw [List.length_drop]; omega

theorem not_over_nil (cfg : WriterCfg) : ¬ Over cfg [] := by
  unfold Over overLimit
  simp [totBytes, totCount]

theorem bufMin_enum (s : Nat) (x : WItem) (xs : List WItem) : bufMin (enum s (x :: xs)) = some s := by
  unfold bufMin
  rw [enum_keys]
  simp only [List.length_cons, List.range'_succ]
  congr 1
  have : ∀ n t, s ≤ t → (List.range' t n).foldl min s = s := by
    intro n
    induction n with
    | zero => intro t _; rfl
    | succ n ih =>
      intro t ht
      rw [List.range'_succ, List.foldl_cons, Nat.min_eq_left ht]
      exact ih (t + 1) (by omega)
  exact this _ _ (by omega)

theorem addItem_spec (cfg : WriterCfg) (a : Nat) (xs : List WItem) (s : WriterState) (pend : List WItem)
    (h : WInv cfg a xs s pend) (x : WItem) :
    ∃ s' pend', addItem cfg s (a + xs.length) x = .ok s' ∧ WInv cfg a (xs ++ [x]) s' pend' := by
  obtain ⟨hall, hb, hok, hmode⟩ := h
  have hidx : a + xs.length = a + s.chunks.flatten.length + pend.length := by rw [hall, List.length_append]; omega
  have hget : bufGet s.buf (a + xs.length) = none := by
    rw [hb, bufGet_enum, if_pos (by omega), hidx]
    rw [List.getElem?_eq_none (by omega)]
  have hall' : xs ++ [x] = s.chunks.flatten ++ (pend ++ [x]) := by rw [hall, List.append_assoc]
  have hb' : s.buf ++ [(a + xs.length, x)] = enum (a + s.chunks.flatten.length) (pend ++ [x]) := by
    rw [enum_append, hb, hidx]; rfl
  have hok' := hok.push x
  unfold addItem
  rw [hget]
  simp only [Option.isSome_none, Bool.false_eq_true, if_false]
  rcases hmode with ⟨m1, m2, m3⟩ | ⟨m1, m2, m3, m4, m5, m6⟩ | ⟨m1, m, z, m2, m3, m4⟩
  · rw [m1]
    simp only
    have hm : bufMin (s.buf ++ [(a + xs.length, x)]) = some (a + s.chunks.flatten.length) := by
      rw [hb']
      cases pend with
      | nil => exact bufMin_enum _ _ _
      | cons y ys => exact bufMin_enum _ _ _
    rw [hm]
    refine flush_spec cfg a (xs ++ [x]) { s with
      buf := s.buf ++ [(a + xs.length, x)],
      minIdx := some (a + s.chunks.flatten.length), maxIdx := some (a + s.chunks.flatten.length),
      perBytes := 0, perItems := 0 } (pend ++ [x]) 0 hall' hb' hok' rfl rfl rfl rfl ?_ ?_ ?_
    · rw [List.take_zero]; exact not_over_nil cfg
    · simp
    · simp; omega
  · rw [m1]
    simp only
    rw [if_neg (by omega), if_pos (by rw [m3, hidx])]
    rw [← m1]
    have ht : (pend ++ [x]).take pend.length = pend := by simp
    refine flush_spec cfg a (xs ++ [x]) { s with buf := s.buf ++ [(a + xs.length, x)] } (pend ++ [x]) pend.length
      hall' hb' hok' m1 m3 ?_ ?_ ?_ ?_ ?_
    · rw [ht]; exact m4
    · rw [ht]; exact m5
    · rw [ht]; exact m6
    · simp
    · simp; omega
  · rw [m1]
    simp only
    have hm : m < pend.length := by
      rcases Nat.lt_or_ge m pend.length with h | h
      · exact h
      · rw [List.getElem?_eq_none h] at m3; simp at m3
    rw [if_neg (by omega), if_neg (by rw [m2, Option.some.injEq]; omega)]
    rw [← m1]
    refine ⟨_, pend ++ [x], rfl, ⟨hall', hb', hok', ?_⟩⟩
    right; right
    refine ⟨m1, m, z, m2, ?_, m4⟩
    rw [List.getElem?_append_left hm]; exact m3

theorem addAll_spec (cfg : WriterCfg) (a : Nat) (ys xs : List WItem) (s : WriterState) (pend : List WItem)
    (h : WInv cfg a xs s pend) :
    ∃ s' pend', addAll cfg s (enum (a + xs.length) ys) = .ok s' ∧ WInv cfg a (xs ++ ys) s' pend' := by
  induction ys generalizing xs s pend with
  | nil => exact ⟨s, pend, rfl, by simpa using h⟩
  | cons y ys ih =>
    obtain ⟨s1, p1, h1, h2⟩ := addItem_spec cfg a xs s pend h y
    obtain ⟨s2, p2, h3, h4⟩ := ih (xs ++ [y]) s1 p1 h2
    refine ⟨s2, p2, ?_, by simpa using h4⟩
    simp only [enum, addAll, h1, Except.bind]
    rw [← h3]
    simp [Nat.add_assoc]

theorem init_inv (cfg : WriterCfg) (a : Nat) : WInv cfg a [] WriterState.init [] :=
  ⟨rfl, rfl, ⟨by simp [WriterState.init], by simp [WriterState.init], by simp [WriterState.init]⟩,
    Or.inl ⟨rfl, rfl, by simp⟩⟩

theorem contiguous_range' (s n : Nat) : contiguous (List.range' s n) = true := by
  induction n generalizing s with
  | zero => rfl
  | succ n ih =>
    cases n with
    | zero => rfl
    | succ n =>
      have := ih (s + 1)
      rw [List.range'_succ] at this
      simp only [List.range'_succ, contiguous, this]
      simp

theorem writeRest_spec (cfg : WriterCfg) (s : WriterState) (b : Nat) (pend : List WItem) (hb : s.buf = enum b pend)
    (hne : pend ≠ []) (hsize : cfg.chunkSize = 0 ∨ pend.length ≤ cfg.chunkSize) :
    writeChunk cfg s true = .ok { s with buf := [], chunks := s.chunks ++ [pend] } := by
  have hsort : pySorted (s.buf.map (·.1)) = List.range' b pend.length := by
    rw [hb, enum_keys]
    apply pySorted_of_pairwise
    refine List.Pairwise.imp (R := fun a b => a < b) ?_ ?_
    · intro a b h; omega
    · exact List.pairwise_lt_range'
  unfold writeChunk chunkItems
  simp only [if_true]
  rw [hsort, contiguous_range', if_pos rfl, hb, bufPopAll_enum _ _ _ (Nat.le_refl _)]
  simp only [bind, Except.bind, List.take_length, List.drop_length, enum]
  have : pend.length ≠ 0 := by rw [Ne, List.length_eq_zero_iff]; exact hne
  rw [if_neg this, if_neg (by omega)]

theorem shouldWrite_quiet (cfg : WriterCfg) (a : Nat) (xs : List WItem) (s : WriterState) (pend : List WItem)
    (h : WInv cfg a xs s pend) : shouldWrite cfg s = (false, s) := by
  obtain ⟨hall, hb, hok, hmode⟩ := h
  unfold shouldWrite
  split
  · rfl
  rcases hmode with ⟨m1, m2, m3⟩ | ⟨m1, m2, m3, m4, m5, m6⟩ | ⟨m1, m, z, m2, m3, m4⟩
  · rw [m2]
  · simp only [m3]
    unfold scan
    rw [hb, bufGet_enum, if_pos (by omega), List.getElem?_eq_none (by omega)]
    simp only
    rw [← hb, ← m3]
  · simp only [m2]
    unfold scan
    rw [hb, bufGet_enum, if_pos (by omega), show a + s.chunks.flatten.length + m - (a + s.chunks.flatten.length) = m by omega, m3]
    simp only [m4, ne_eq, not_true, if_false]
    rw [← hb, ← m2]

theorem done_spec (cfg : WriterCfg) (a : Nat) (xs : List WItem) (s : WriterState) (pend : List WItem)
    (h : WInv cfg a xs s pend) (hsize : cfg.chunkSize = 0 ∨ pend.length ≤ cfg.chunkSize) :
    ∃ s', writerDone cfg false s = .ok s' ∧ s'.buf = [] ∧
      s'.chunks = s.chunks ++ (if pend = [] then [] else [pend]) := by
  have hq := shouldWrite_quiet cfg a xs s pend h
  have hb := h.buf
  unfold writerDone
  simp only [Bool.false_eq_true, if_false, doneLoop, hq, Except.bind]
  by_cases hp : pend = []
  · subst hp
    refine ⟨s, ?_, by rw [hb]; rfl, by simp⟩
    rw [hb]; rfl
  · have : s.buf.isEmpty = false := by
      rw [hb]; cases pend with
      | nil => exact absurd rfl hp
      | cons x xs => rfl
    rw [this]
    simp only [Bool.false_eq_true, if_false]
    exact ⟨_, writeRest_spec cfg s _ pend hb hp hsize, rfl, by rw [if_neg hp]⟩

end LitData
