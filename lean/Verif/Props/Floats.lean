import Verif.Lemmas.Floats
import Verif.Props.Subsample

/-! Properties C16 and C17 with the ratios as doubles: what the rounding of Python's numbers does to subsampling and splitting. -/

namespace LitData.Props
open LitData Spec

attribute [local irreducible] Dbl.one Dbl.round Dbl.ofRatio

/-- `math.isclose(x, 1.0)` fails for a double that is not within `2 ^ -27` of one. -/
theorem far_from_one (s : Nat) (hd : s + 2 ^ 1047 ≤ Dbl.one ∨ Dbl.one + 2 ^ 1047 ≤ s) : Dbl.isCloseOne s = false := by
  have hone := one_pos
  have htol : Dbl.relTol ≤ 2 ^ 1045 := by
    have : (0x112e0be826d695 : Nat) ≤ 2 ^ 53 := by decide
    have h := Nat.mul_le_mul_right (2 ^ 992) this
    rw [← Nat.pow_add] at h
    exact h
  have hlt : (2 : Nat) ^ 1046 < 2 ^ 1047 := Nat.pow_lt_pow_right (by omega) (by omega)
  have hlt5 : (2 : Nat) ^ 1045 < 2 ^ 1046 := Nat.pow_lt_pow_right (by omega) (by omega)
  have h45 : (2 : Nat) ^ 1046 = 2 * 2 ^ 1045 := Nat.pow_succ'
  have hmul1 : Dbl.mul Dbl.relTol Dbl.one ≤ 2 ^ 1045 := round_le_mul _ _ _ hone (isDbl_pow _) (Nat.mul_le_mul_right _ htol)
  -- the difference, and what it is compared with
  have key : ∀ d : Nat, d = (if s ≤ Dbl.one then Dbl.sub Dbl.one s else Dbl.sub s Dbl.one) → 2 ^ 1047 ≤ d ∧ (d ≤ Dbl.mul Dbl.relTol s → False) := by
    intro d hdef
    rcases Nat.lt_or_ge s (2 * Dbl.one) with h2 | h2
    · have hmul : Dbl.mul Dbl.relTol s ≤ 2 ^ 1046 := by
        apply round_le_mul _ _ _ hone (isDbl_pow _)
        calc Dbl.relTol * s ≤ 2 ^ 1045 * (2 * Dbl.one) := Nat.mul_le_mul htol (Nat.le_of_lt h2)
          _ = 2 ^ 1046 * Dbl.one := by rw [h45, ← Nat.mul_assoc, Nat.mul_comm (2 ^ 1045) 2]
      have hge : 2 ^ 1047 ≤ d := by
        rw [hdef]
        split
        · exact le_round _ _ (isDbl_pow _) (by omega)
        · exact le_round _ _ (isDbl_pow _) (by omega)
      exact ⟨hge, fun h => by omega⟩
    · have hs0 : s ≠ 0 := by omega
      have hlog : 1075 ≤ Nat.log2 s := by
        rw [Nat.le_log2 hs0, Nat.pow_succ', ← one_eq]
        exact h2
      have hself : 2 ^ Nat.log2 s ≤ s := Nat.log2_self_le hs0
      have hself' : s < 2 ^ (Nat.log2 s + 1) := Nat.lt_log2_self
      have hge : 2 ^ (Nat.log2 s - 1) ≤ d := by
        rw [hdef, if_neg (by omega)]
        apply le_round _ _ (isDbl_pow _)
        clear hd htol hlt hlt5 h45 hmul1
        obtain ⟨m, hm⟩ : ∃ m, Nat.log2 s = m + 1 := ⟨Nat.log2 s - 1, by omega⟩
        rw [hm, Nat.add_sub_cancel]
        rw [hm, Nat.pow_succ'] at hself
        omega
      have hmul : Dbl.mul Dbl.relTol s ≤ 2 ^ (Nat.log2 s - 2) := by
        apply round_le_mul _ _ _ hone (isDbl_pow _)
        calc Dbl.relTol * s ≤ 2 ^ 1045 * 2 ^ (Nat.log2 s + 1) := Nat.mul_le_mul htol (Nat.le_of_lt hself')
          _ = 2 ^ (1045 + (Nat.log2 s + 1)) := (Nat.pow_add 2 1045 _).symm
          _ ≤ 2 ^ (Nat.log2 s - 2 + 1074) := Nat.pow_le_pow_right (by omega) (by omega)
          _ = 2 ^ (Nat.log2 s - 2) * Dbl.one := by rw [Nat.pow_add, one_eq]
      have hlt2 : (2 : Nat) ^ (Nat.log2 s - 2) < 2 ^ (Nat.log2 s - 1) := Nat.pow_lt_pow_right (by omega) (by omega)
      have hle2 : (2 : Nat) ^ 1047 ≤ 2 ^ (Nat.log2 s - 1) := Nat.pow_le_pow_right (by omega) (by omega)
      exact ⟨by omega, fun h => by omega⟩
  obtain ⟨k1, k2⟩ := key _ rfl
  have hP := Nat.two_pow_pos 1047
  unfold Dbl.isCloseOne
  simp only [Bool.or_eq_false_iff, decide_eq_false_iff_not]
  exact ⟨⟨by omega, by omega⟩, k2⟩

/-- **C16, doubles.** The ratio is a double `s` below `2 ^ 53` that is not within `2 ^ -27` of 1. The dataset of `N` samples is repeated `⌊s⌋` times, each time completely. Then `c` more samples
follow, none of them twice, the first ones if there is no shuffle. With `f` the fraction of `s` after the point, `c` is at most `N * f * (1 + 2 ^ -53)` and above `N * f - 1`. -/
theorem c16_double {α : Type} (perm : Nat → Option (List Nat → List Nat)) (hp : Perms perm) (chunks : List α)
    (roi : List (Nat × Nat)) (s : Nat) (hd : IsDbl s) (hs : 0 < s) (hs' : s < 2 ^ 53 * Dbl.one) (hfar : s + 2 ^ 1047 ≤ Dbl.one ∨ Dbl.one + 2 ^ 1047 ≤ s)
    (hne : chunks ≠ []) (hl : chunks.length = roi.length) (hwf : RoiWF roi) (hN : (regionSamples chunks roi).length < 2 ^ 53) :
    ∃ (files : List α) (regions : List (Nat × Nat)) (copies : List (List (α × Nat))) (last : List (α × Nat)) (c : Nat),
      subsampleFloat perm chunks roi s = .ok (files, regions) ∧ regionSamples files regions = copies.flatten ++ last.take c ∧
      copies.length = s / Dbl.one ∧ (∀ x ∈ copies, x.Perm (regionSamples chunks roi)) ∧ last.Perm (regionSamples chunks roi) ∧
      c ≤ (regionSamples chunks roi).length ∧
      c * Dbl.one * 2 ^ 53 ≤ (regionSamples chunks roi).length * (s % Dbl.one) * (2 ^ 53 + 1) ∧
      (regionSamples chunks roi).length * (s % Dbl.one) < (c + 1) * Dbl.one ∧
      c = Dbl.scale (regionSamples chunks roi).length (s % Dbl.one) ∧
      ((∀ k, perm k = none) → last = regionSamples chunks roi) ∧ Within files regions chunks roi := by
  unfold subsampleFloat
  rw [if_neg (by omega), if_neg hne, if_neg (by rw [far_from_one s hfar]; decide)]
  have hone := one_pos
  have hmod : s % Dbl.one < Dbl.one := Nat.mod_lt _ hone
  obtain ⟨fs, rs, c', r', copies, g1, g2, g3, g4, g5, g6, g7, g8, g9⟩ := wholeCopies_ok perm hp (s / Dbl.one) 0 chunks roi hl hwf
  rw [floatCopies_eq perm (s / Dbl.one) (Dbl.toInt s + 1) 0 chunks roi s hd hs' rfl (Nat.lt_succ_self _), g1]
  simp only [Except.map]
  obtain ⟨b0, b1, b2⟩ := scale_bounds _ hN (s % Dbl.one) (Nat.le_of_lt hmod)
  by_cases hr : s % Dbl.one = 0
  · rw [if_pos hr]
    refine ⟨fs, rs, copies, regionSamples chunks roi, _, rfl, ?_, g6, g7, List.Perm.refl _, b0, b1, b2, rfl, fun _ => rfl, g8⟩
    have : Dbl.scale (regionSamples chunks roi).length (s % Dbl.one) = 0 := by
      rw [hr, Nat.mul_zero, Nat.zero_mul, Nat.mul_assoc] at b1
      have hpos := Nat.mul_pos hone (Nat.two_pow_pos 53)
      rw [hr]
      exact (Nat.mul_eq_zero.1 (Nat.le_zero.1 b1)).resolve_right (by omega)
    rw [this, List.take_zero, List.append_nil, g5]
  · rw [if_neg hr, Nat.zero_add]
    obtain ⟨c, r, h1, h2, h3, h4, h5⟩ := maybeShuffle_ok (perm (s / Dbl.one)) (hp _) c' r' g2
    rw [h1]
    simp only
    have hN' : (r.map roiSize).sum = (regionSamples chunks roi).length := by
      rw [regionSamples_length _ _ hl, sum_roiSize_perm h3, sum_roiSize_perm g3]
    have hwf' : RoiWF r := roiWF_perm (h3.trans g3) hwf
    obtain ⟨fs', rs', left, leftRoi, k1, k2⟩ := subsampleRoi_ok c r (Dbl.scale (r.map roiSize).sum (s % Dbl.one)) h2 hwf' (by rw [hN']; exact b0)
    rw [k1]
    simp only
    refine ⟨_, _, copies, regionSamples c r, _, rfl, ?_, g6, g7, regionSamples_perm _ _ _ _ (h4.trans g4), b0, b1, b2, rfl, ?_,
      g8.append (k2.within.trans_perm (h4.trans g4))⟩
    · rw [regionSamples_append _ _ _ _ g8.1, g5, k2.keptS, hN']
    · intro hn
      obtain ⟨e1, e2⟩ := h5 (hn _)
      obtain ⟨f1, f2, f3⟩ := g9 hn
      rw [e1, e2, f1, f2]

/-- **C16, close to one.** A ratio that `math.isclose` takes for 1 gives the whole dataset in stored order, shuffled or not. -/
theorem c16_close {α : Type} (perm : Nat → Option (List Nat → List Nat)) (chunks : List α) (roi : List (Nat × Nat)) (s : Nat) (hs : 0 < s) (hne : chunks ≠ [])
    (hc : Dbl.isCloseOne s = true) : subsampleFloat perm chunks roi s = .ok (chunks, roi) := by
  unfold subsampleFloat
  rw [if_neg (by omega), if_neg hne, if_pos hc]

theorem below_one (p q : Nat) (h : p * (2 ^ 26 + 1) ≤ q * 2 ^ 26) : p * 2 ^ 27 ≤ (2 ^ 27 - 1) * q := by
  have e1 : (2 : Nat) ^ 27 = 2 * 2 ^ 26 := Nat.pow_succ'
  have hx := Nat.two_pow_pos 26
  generalize (2 : Nat) ^ 26 = x at *
  generalize (2 : Nat) ^ 27 = y at *
  subst e1
  rw [Nat.mul_add, Nat.mul_one] at h
  rw [Nat.sub_mul, Nat.one_mul, Nat.mul_left_comm, Nat.mul_assoc 2 x q, Nat.mul_comm x q]
  rcases Nat.lt_or_ge q (2 * p) with h2 | h2
  · omega
  · have h3 := Nat.mul_le_mul_right x h2
    have h4 := Nat.mul_le_mul_left q hx
    rw [Nat.mul_assoc] at h3
    omega

/-- **C16, a ratio written as a fraction.** `subsample=p/q` below 1 on `N` samples keeps `⌊N * p / q⌋` samples, or one less, and that only if `N * p / q` is a whole number. -/
theorem c16_fraction {α : Type} (perm : Nat → Option (List Nat → List Nat)) (hp : Perms perm) (chunks : List α)
    (roi : List (Nat × Nat)) (p q : Nat) (hp0 : 0 < p) (hpq : p * (2 ^ 26 + 1) ≤ q * 2 ^ 26) (hq' : q ≤ 2 ^ 1000)
    (hne : chunks ≠ []) (hl : chunks.length = roi.length) (hwf : RoiWF roi) (hN : (regionSamples chunks roi).length * p < 2 ^ 51) :
    ∃ (files : List α) (regions : List (Nat × Nat)) (order : List (α × Nat)) (c : Nat), subsampleFloat perm chunks roi (Dbl.ofRatio p q) = .ok (files, regions) ∧
      order.Perm (regionSamples chunks roi) ∧ regionSamples files regions = order.take c ∧ (regionSamples files regions).length = c ∧
      (c = (regionSamples chunks roi).length * p / q ∨
        (q ∣ (regionSamples chunks roi).length * p ∧ c + 1 = (regionSamples chunks roi).length * p / q)) := by
  have hone := one_pos
  have hq : 0 < q := by
    rcases Nat.eq_zero_or_pos q with h | h
    · subst h
      omega
    · exact h
  have hple : p ≤ q := by
    apply Nat.le_of_mul_le_mul_right _ (Nat.two_pow_pos 26)
    exact Nat.le_trans (Nat.mul_le_mul_left p (by omega)) hpq
  obtain ⟨r1, r2⟩ := ratio_err p q hp0 hq hq'
  have hNlt : (regionSamples chunks roi).length < 2 ^ 53 := by
    have : (regionSamples chunks roi).length ≤ (regionSamples chunks roi).length * p := Nat.le_mul_of_pos_right _ hp0
    omega
  -- the double is positive and away from one
  have hpos : 0 < Dbl.ofRatio p q := by
    rcases Nat.eq_zero_or_pos (Dbl.ofRatio p q) with h | h
    · rw [h, Nat.zero_mul, Nat.zero_mul] at r2
      have : 0 < p * Dbl.one * (2 ^ 53 - 1) := Nat.mul_pos (Nat.mul_pos hp0 hone) (by omega)
      omega
    · exact h
  have hfar : Dbl.ofRatio p q + 2 ^ 1047 ≤ Dbl.one := by
    have hd : IsDbl (2 ^ 1047 * (2 ^ 27 - 1)) := by
      rw [Nat.mul_comm]
      exact dbl_pow_mul _ _ (by omega)
    have hle : Dbl.ofRatio p q ≤ 2 ^ 1047 * (2 ^ 27 - 1) := by
      unfold Dbl.ofRatio
      apply round_le_mul _ _ _ hq hd
      have e : Dbl.one = 2 ^ 1047 * 2 ^ 27 := by rw [one_eq, ← Nat.pow_add]
      rw [e]
      have : p * 2 ^ 27 ≤ (2 ^ 27 - 1) * q := below_one p q hpq
      generalize (2 : Nat) ^ 1047 = t
      generalize (2 : Nat) ^ 27 - 1 = u at *
      generalize (2 : Nat) ^ 27 = v at *
      calc p * (t * v) = t * (p * v) := by ac_rfl
        _ ≤ t * (u * q) := Nat.mul_le_mul_left _ this
        _ = t * u * q := by rw [Nat.mul_assoc]
    have e : Dbl.one = 2 ^ 1047 * (2 ^ 27 - 1) + 2 ^ 1047 := by
      have e' : Dbl.one = 2 ^ 1047 * 2 ^ 27 := by rw [one_eq, ← Nat.pow_add]
      rw [e']
      generalize (2 : Nat) ^ 1047 = t
      omega
    rw [e]
    exact Nat.add_le_add_right hle _
  have hlt : Dbl.ofRatio p q < Dbl.one := by have := Nat.two_pow_pos 1047; omega
  obtain ⟨fs, rs, copies, last, c, h1, h2, h3, h4, h5, h6, _, _, h9, _⟩ := c16_double perm hp chunks roi (Dbl.ofRatio p q) (isDbl_ofRatio p q hq) hpos
    (Nat.lt_of_lt_of_le hlt (Nat.le_mul_of_pos_left _ (Nat.two_pow_pos 53))) (.inl hfar) hne hl hwf hNlt
  rw [Nat.div_eq_of_lt hlt] at h3
  have hc := List.length_eq_zero_iff.1 h3
  subst hc
  rw [List.flatten_nil, List.nil_append] at h2
  rw [Nat.mod_eq_of_lt hlt] at h9
  refine ⟨fs, rs, last, c, h1, h5, h2, ?_, ?_⟩
  · rw [h2, List.length_take, h5.length_eq, Nat.min_eq_left h6]
  · rw [h9]
    exact scale_ratio _ _ _ hq hq' hple hNlt hN

/-- A sample is lost: `int(100 * 0.29)` is 28. -/
theorem c16_sample_lost : Dbl.scale 100 (Dbl.ofRatio 29 100) = 28 := by decide +kernel

/-- Rounding also goes the other way: the double of `0.7` is below 7/10, and `int(10 * 0.7)` is 7 all the same. -/
theorem c16_rounds_up : Dbl.ofRatio 7 10 * 10 < 7 * Dbl.one ∧ Dbl.scale 10 (Dbl.ofRatio 7 10) = 7 := by decide +kernel

-- 10 samples in three chunks, shuffled, ratio 0.7
example : ∃ fs rs, subsampleFloat (fun _ => some List.reverse) ["a", "b", "c"] [(0, 4), (0, 3), (0, 3)] (Dbl.ofRatio 7 10) = .ok (fs, rs) ∧
    regionSamples fs rs = [("c", 0), ("c", 1), ("c", 2), ("b", 0), ("b", 1), ("b", 2), ("a", 0)] := 
  ⟨["c", "b", "a"], [(0, 3), (0, 3), (0, 1)], by decide +kernel, by decide +kernel⟩
-- 2.5 copies
example : subsampleFloat (fun _ => some List.reverse) ["a", "b"] [(0, 2), (0, 2)] (Dbl.ofRatio 5 2) =
    .ok (["b", "a", "a", "b", "b"], [(0, 2), (0, 2), (0, 2), (0, 2), (0, 2)]) := by decide +kernel
-- the hypotheses of `c16_fraction` and `c16_double` are met
example := c16_fraction (fun _ => some List.reverse) (by intro k f h l; injection h with h; subst h; exact List.reverse_perm l) ["a", "b", "c"]
  [(0, 4), (0, 3), (0, 3)] 7 10 (by decide) (by decide) (by decide +kernel) (by decide) rfl (by unfold RoiWF; decide) (by decide +kernel)
example := c16_double (fun _ => none) (by intro k f h; cases h) ["a", "b"] [(0, 2), (0, 2)] (Dbl.ofRatio 5 2) (isDbl_ofRatio 5 2 (by decide)) (by decide +kernel)
  (by decide +kernel) (by decide +kernel) (by decide) rfl (by unfold RoiWF; decide) (by decide +kernel)
-- a ratio that counts as one
example : Dbl.isCloseOne (Dbl.ofRatio 9999999995 10000000000) = true ∧ Dbl.isCloseOne (Dbl.ofRatio 99999999 100000000) = false := by decide +kernel

/-- **C17, doubles.** A dataset made of some chunks of the index in index order with distinct names is split by doubles in `[0, 1]` whose sum, added from left to right and rounded at each
addition, is at most 1. If `(N + 1) * (k + 1)` is at most `2 ^ 53` for `N` samples and `k` splits, each split has `int(N * r)` samples, no sample is in two splits or twice in one, and together
the splits are the beginning of a shuffled order of the dataset. -/
theorem c17_doubles (perm : List Nat → List Nat) (hp : ∀ l, (perm l).Perm l) (original sel : List ChunkInfo)
    (hn : (original.map (·.filename)).Nodup) (hsub : sel.Sublist original) (roi : List (Nat × Nat)) (hl : sel.length = roi.length)
    (hwf : RoiWF roi) (ratios : List FloatRatio) (hf : ∀ r ∈ ratios, r.isFloat = true ∧ (r.negative = false ∨ r.size = 0) ∧ r.size ≤ Dbl.one)
    (hsum : floatSum (ratios.map (·.size)) ≤ Dbl.one) (hN : ((regionSamples sel roi).length + 1) * (ratios.length + 1) ≤ 2 ^ 53) :
    ∃ outs order, splitFloat perm original (sel.map (·.filename)) roi ratios = .ok outs ∧
      order.Perm (regionSamples sel roi) ∧
      outs.map (fun o => (regionSamples o.1 o.2).length) = ratios.map (fun r => Dbl.scale (regionSamples sel roi).length r.size) ∧
      outs.flatMap (fun o => regionSamples o.1 o.2) <+: order ∧ (outs.flatMap fun o => regionSamples o.1 o.2).Nodup := by
  unfold splitFloat
  rw [if_neg (by simp only [List.any_eq_true, not_exists, not_and, Bool.not_eq_true']; intro r hr; simp [(hf r hr).1])]
  rw [if_neg (by
    rw [Classical.not_not, List.all_eq_true]; intro r hr
    obtain ⟨_, h2, h3⟩ := hf r hr
    rcases h2 with h2 | h2 <;> simp [h2, h3])]
  rw [if_neg (by omega), filter_sublist_names original sel hn hsub]
  obtain ⟨c, r, h1, h2, h3, h4, h5, h6⟩ := shuffleTogether_ok perm hp sel roi hl
  rw [h1]
  simp only
  have hlen : (regionSamples sel roi).length = (roi.map roiSize).sum := regionSamples_length _ _ hl
  have hle : (ratios.map fun s => Dbl.scale (roi.map roiSize).sum s.size).sum ≤ (r.map roiSize).sum := by
    have := counts_le (roi.map roiSize).sum (ratios.map (·.size)) (by
      simp only [List.mem_map]
      rintro x ⟨r, hr, rfl⟩
      exact (hf r hr).2.2) hsum (by rw [List.length_map, ← hlen]; exact hN)
    rw [List.map_map] at this
    rw [sum_roiSize_perm h5]
    exact this
  obtain ⟨outs, g1, g2, g3, _⟩ := splitLoop_ok _ c r (by omega) (roiWF_perm h5 hwf) hle
  refine ⟨outs, regionSamples c r, g1, regionSamples_perm _ _ _ _ h6, ?_, ?_, ?_⟩
  · rw [g2, hlen]
  · rw [g3]; exact List.take_prefix _ _
  · rw [g3]
    have hsn : sel.Nodup := by
      have := hsub.map (fun c : ChunkInfo => c.filename)
      have h := hn.sublist this
      rw [List.nodup_iff_pairwise_ne, List.pairwise_map] at h
      rw [List.nodup_iff_pairwise_ne]
      exact h.imp (fun h e => h (by rw [e]))
    exact ((regionSamples_perm _ _ _ _ h6).nodup_iff.2 (regionSamples_nodup sel roi hsn)).sublist (List.take_sublist _ _)

theorem floatSum_two (x y : Nat) : floatSum [x, y] = Dbl.add (Dbl.add 0 x) y := by
  unfold floatSum
  rw [List.foldl_cons, List.foldl_cons, List.foldl_nil]

/-- **C17, two fractions.** Two ratios `p₁ / q` and `p₂ / q` with sum at most 1 are never refused. The two splits have `⌊N * p / q⌋` samples each, or one less, and that only where `N * p / q` is
a whole number. -/
theorem c17_two_fractions (perm : List Nat → List Nat) (hp : ∀ l, (perm l).Perm l) (original sel : List ChunkInfo)
    (hn : (original.map (·.filename)).Nodup) (hsub : sel.Sublist original) (roi : List (Nat × Nat)) (hl : sel.length = roi.length)
    (hwf : RoiWF roi) (p₁ p₂ q : Nat) (h₁ : 0 < p₁) (h₂ : 0 < p₂) (hq : p₁ + p₂ ≤ q) (hq' : q ≤ 2 ^ 1000)
    (hN : (regionSamples sel roi).length * q < 2 ^ 51) :
    ∃ a b ra rb c₁ c₂, splitFloat perm original (sel.map (·.filename)) roi [⟨true, false, Dbl.ofRatio p₁ q⟩, ⟨true, false, Dbl.ofRatio p₂ q⟩] = .ok [(a, ra), (b, rb)] ∧
      (regionSamples a ra).length = c₁ ∧ (regionSamples b rb).length = c₂ ∧ (regionSamples a ra ++ regionSamples b rb).Nodup ∧
      (c₁ = (regionSamples sel roi).length * p₁ / q ∨ (q ∣ (regionSamples sel roi).length * p₁ ∧ c₁ + 1 = (regionSamples sel roi).length * p₁ / q)) ∧
      (c₂ = (regionSamples sel roi).length * p₂ / q ∨ (q ∣ (regionSamples sel roi).length * p₂ ∧ c₂ + 1 = (regionSamples sel roi).length * p₂ / q)) := by
  have hqpos : 0 < q := by omega
  have hNlt : (regionSamples sel roi).length < 2 ^ 51 := Nat.lt_of_le_of_lt (Nat.le_mul_of_pos_right _ hqpos) hN
  have hsum : floatSum (([⟨true, false, Dbl.ofRatio p₁ q⟩, ⟨true, false, Dbl.ofRatio p₂ q⟩] : List FloatRatio).map (·.size)) ≤ Dbl.one := by
    have hd : IsDbl (Dbl.ofRatio p₁ q) := isDbl_ofRatio p₁ q hqpos
    have e : Dbl.add 0 (Dbl.ofRatio p₁ q) = Dbl.ofRatio p₁ q := by
      unfold Dbl.add
      rw [Nat.zero_add]
      exact round_dbl _ hd
    have h := two_ratios p₁ p₂ q hqpos hq' hq h₁ h₂
    simp only [List.map_cons, List.map_nil]
    rw [floatSum_two, e]
    exact h
  obtain ⟨outs, order, g1, g2, g3, g4, g5⟩ := c17_doubles perm hp original sel hn hsub roi hl hwf
    [⟨true, false, Dbl.ofRatio p₁ q⟩, ⟨true, false, Dbl.ofRatio p₂ q⟩] (by
      intro r hr
      simp only [List.mem_cons, List.not_mem_nil, or_false] at hr
      rcases hr with rfl | rfl
      · exact ⟨rfl, .inl rfl, ratio_le_one _ _ hqpos (by omega)⟩
      · exact ⟨rfl, .inl rfl, ratio_le_one _ _ hqpos (by omega)⟩) hsum (by
      simp only [List.length_cons, List.length_nil]
      clear hsum hq' hN
      generalize (regionSamples sel roi).length = N at *
      omega)
  have hlen : outs.length = 2 := by
    have := congrArg List.length g3
    simpa using this
  match outs, hlen, g1, g3, g4, g5 with
  | [(a, ra), (b, rb)], _, g1, g3, g4, g5 =>
    simp only [List.map_cons, List.map_nil, List.cons.injEq, and_true] at g3
    simp only [List.flatMap_cons, List.flatMap_nil, List.append_nil] at g5
    have m1 : (regionSamples sel roi).length * p₁ < 2 ^ 51 := Nat.lt_of_le_of_lt (Nat.mul_le_mul_left _ (by omega)) hN
    have m2 : (regionSamples sel roi).length * p₂ < 2 ^ 51 := Nat.lt_of_le_of_lt (Nat.mul_le_mul_left _ (by omega)) hN
    refine ⟨a, b, ra, rb, _, _, g1, g3.1, g3.2, g5, ?_, ?_⟩
    · exact scale_ratio _ _ _ hqpos hq' (by omega) (by omega) m1
    · exact scale_ratio _ _ _ hqpos hq' (by omega) (by omega) m2

/-- **C17, bad doubles.** A ratio that is not a float, lies outside `[0, 1]`, or a sum above 1 raises `ValueError`, whatever the dataset. -/
theorem c17_bad_doubles (perm : List Nat → List Nat) (original : List ChunkInfo) (files : List String) (roi : List (Nat × Nat)) (ratios : List FloatRatio)
    (h : (∃ r ∈ ratios, r.isFloat = false ∨ (r.negative = true ∧ 0 < r.size) ∨ Dbl.one < r.size) ∨ Dbl.one < floatSum (ratios.map (·.size))) :
    splitFloat perm original files roi ratios = .error .valueError := by
  unfold splitFloat
  split
  · rfl
  · rename_i h1
    split
    · rfl
    · rename_i h2
      split
      · rfl
      · rename_i h3
        exfalso
        rcases h with ⟨r, hr, hc⟩ | h
        · rw [Classical.not_not, List.all_eq_true] at h2
          have h2 := h2 r hr
          simp only [Bool.and_eq_true, Bool.or_eq_true, Bool.not_eq_true', decide_eq_true_eq] at h2
          simp only [List.any_eq_true, not_exists, not_and, Bool.not_eq_true'] at h1
          have h1 := h1 r hr
          rcases hc with hc | ⟨hc, hc'⟩ | hc
          · exact h1 hc
          · rcases h2.1 with h | h
            · rw [hc] at h; cases h
            · omega
          · omega
        · omega

/-- Three ratios with sum 1 are refused: `0.33 + 0.56 + 0.11` is `1.0000000000000002`. -/
theorem c17_valid_refused (perm : List Nat → List Nat) (original : List ChunkInfo) (files : List String) (roi : List (Nat × Nat)) :
    splitFloat perm original files roi [⟨true, false, Dbl.ofRatio 33 100⟩, ⟨true, false, Dbl.ofRatio 56 100⟩, ⟨true, false, Dbl.ofRatio 11 100⟩] = .error .valueError :=
  c17_bad_doubles perm original files roi _ (.inr (by decide +kernel))

/-- A dataset of 100 samples. -/
def splitHundred : List ChunkInfo := [⟨"a.bin", 60, 0, none⟩, ⟨"b.bin", 40, 0, none⟩]

/-- The ratios 0.29 and 0.71 of 100 samples leave a sample out. -/
theorem c17_sample_lost : splitFloat id splitHundred (splitHundred.map (·.filename)) [(0, 60), (0, 40)]
    [⟨true, false, Dbl.ofRatio 29 100⟩, ⟨true, false, Dbl.ofRatio 71 100⟩] =
    .ok [([⟨"a.bin", 60, 0, none⟩], [(0, 28)]), ([⟨"a.bin", 60, 0, none⟩, ⟨"b.bin", 40, 0, none⟩], [(28, 60), (0, 39)])] := by decide +kernel

-- the hypotheses are met by a concrete dataset
example := c17_two_fractions List.reverse List.reverse_perm splitHundred splitHundred (by decide) (List.Sublist.refl _) [(0, 60), (0, 40)] rfl
  (by unfold RoiWF; decide) 29 71 100 (by decide) (by decide) (by decide) (by decide +kernel) (by decide +kernel)
example := c17_doubles List.reverse List.reverse_perm splitHundred splitHundred (by decide) (List.Sublist.refl _) [(0, 60), (0, 40)] rfl
  (by unfold RoiWF; decide) [⟨true, false, Dbl.ofRatio 1 3⟩, ⟨true, true, 0⟩, ⟨true, false, Dbl.ofRatio 2 3⟩] (by decide +kernel) (by decide +kernel) (by decide +kernel)
example : (splitFloat List.reverse splitHundred (splitHundred.map (·.filename)) [(0, 60), (0, 40)] [⟨true, true, 1⟩]) = .error .valueError := by decide +kernel

end LitData.Props
