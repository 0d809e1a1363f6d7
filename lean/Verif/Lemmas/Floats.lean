import Verif.Model.Floats
import Verif.Lemmas.Format
import Verif.Lemmas.Subsample

/-! Rounding to doubles: exact on doubles, monotone against doubles, relative error. -/

namespace LitData

theorem one_eq : Dbl.one = 2 ^ 1074 := rfl

theorem one_pos : 0 < Dbl.one := Nat.two_pow_pos _

attribute [local irreducible] Dbl.one

/-- A number of units that is a double: at most 53 significant bits. -/
def IsDbl (x : Nat) : Prop := x < 2 ^ 53 ∨ 2 ^ (Nat.log2 x - 52) ∣ x

theorem roundHalfEven_le (num den y : Nat) (hd : 0 < den) (h : num ≤ y * den) : roundHalfEven num den ≤ y := by
  have hm := Nat.div_add_mod num den
  have hlt := Nat.mod_lt num hd
  have hq : num / den ≤ y := Nat.div_le_of_le_mul (by rw [Nat.mul_comm]; exact h)
  unfold roundHalfEven
  rcases Nat.lt_or_ge (num / den) y with h1 | h1
  · dsimp only
    (repeat' split) <;> omega
  · have he : num / den = y := by omega
    have hz : num % den = 0 := by
      rw [he] at hm
      rw [Nat.mul_comm] at hm
      omega
    dsimp only
    rw [hz, he, if_pos (by omega)]
    exact Nat.le_refl _

theorem le_roundHalfEven (num den y : Nat) (hd : 0 < den) (h : y * den ≤ num) : y ≤ roundHalfEven num den := by
  have hq : y ≤ num / den := (Nat.le_div_iff_mul_le hd).2 h
  unfold roundHalfEven
  dsimp only
  (repeat' split) <;> omega

theorem roundHalfEven_scale (a b c : Nat) (hc : 0 < c) : roundHalfEven (a * c) (b * c) = roundHalfEven a b := by
  unfold roundHalfEven
  rw [Nat.mul_div_mul_right _ _ hc, Nat.mul_mod_mul_right]
  have h1 : (2 * (a % b * c) < b * c) = (2 * (a % b) < b) := by
    rw [← Nat.mul_assoc]; exact propext (Nat.mul_lt_mul_right hc)
  have h2 : (b * c < 2 * (a % b * c)) = (b < 2 * (a % b)) := by
    rw [← Nat.mul_assoc]; exact propext (Nat.mul_lt_mul_right hc)
  simp only [h1, h2]

theorem round_scale (a b c : Nat) (hc : 0 < c) : Dbl.round (a * c) (b * c) = Dbl.round a b := by
  unfold Dbl.round
  rw [Nat.mul_div_mul_right _ _ hc, roundHalfEven_scale a b c hc]
  have : b * c * 2 ^ (Nat.log2 (a / b) - 52) = b * 2 ^ (Nat.log2 (a / b) - 52) * c := by
    rw [Nat.mul_assoc, Nat.mul_assoc, Nat.mul_comm c]
  rw [this, roundHalfEven_scale a _ c hc]

theorem log2_ge {x : Nat} (h : 2 ^ 53 ≤ x) : 53 ≤ Nat.log2 x := by
  rw [Nat.le_log2 (by omega)]
  exact h

theorem round_small (x : Nat) (h : x < 2 ^ 53) : Dbl.round x 1 = x := by
  unfold Dbl.round
  rw [Nat.div_one, if_pos h]
  have := roundHalfEven_exact x 1 (by omega) (Nat.one_dvd x)
  rw [Nat.mul_one] at this
  exact this

theorem round_big (x : Nat) (h : 2 ^ 53 ≤ x) : Dbl.round x 1 = roundHalfEven x (2 ^ (Nat.log2 x - 52)) * 2 ^ (Nat.log2 x - 52) := by
  unfold Dbl.round
  rw [Nat.div_one, if_neg (by omega), Nat.one_mul]

theorem round_dbl (x : Nat) (h : IsDbl x) : Dbl.round x 1 = x := by
  rcases Nat.lt_or_ge x (2 ^ 53) with hx | hx
  · exact round_small x hx
  · rcases h with h | h
    · omega
    · rw [round_big x hx]
      exact roundHalfEven_exact _ _ (Nat.two_pow_pos _) h

theorem log2_mono {x y : Nat} (h0 : x ≠ 0) (h : x ≤ y) : Nat.log2 x ≤ Nat.log2 y := by
  rw [Nat.le_log2 (by omega)]
  exact Nat.le_trans (Nat.log2_self_le h0) h

/-- A double below stays below. -/
theorem le_round (x y : Nat) (hy : IsDbl y) (h : y ≤ x) : y ≤ Dbl.round x 1 := by
  rcases Nat.lt_or_ge x (2 ^ 53) with hx | hx
  · rw [round_small x hx]; exact h
  · rw [round_big x hx]
    have hx0 : x ≠ 0 := by omega
    have h53 := log2_ge hx
    have hs := Nat.two_pow_pos (Nat.log2 x - 52)
    have key : ∀ z, z ≤ x → 2 ^ (Nat.log2 x - 52) ∣ z → z ≤ roundHalfEven x (2 ^ (Nat.log2 x - 52)) * 2 ^ (Nat.log2 x - 52) := by
      rintro z hz ⟨k, hk⟩
      rw [hk, Nat.mul_comm]
      exact Nat.mul_le_mul_right _ (le_roundHalfEven _ _ _ hs (by rw [Nat.mul_comm, ← hk]; exact hz))
    by_cases hl : 2 ^ Nat.log2 x ≤ y
    · apply key y h
      rcases hy with hy | hy
      · have : 2 ^ 53 ≤ 2 ^ Nat.log2 x := Nat.pow_le_pow_right (by omega) h53
        omega
      · have hy0 : y ≠ 0 := by have := Nat.two_pow_pos (Nat.log2 x); omega
        have h1 : Nat.log2 y ≤ Nat.log2 x := log2_mono hy0 h
        have h2 : Nat.log2 x ≤ Nat.log2 y := (Nat.le_log2 hy0).2 hl
        rw [show Nat.log2 x = Nat.log2 y from by omega]
        exact hy
    · refine Nat.le_trans (by omega) (key (2 ^ Nat.log2 x) (Nat.log2_self_le hx0) ?_)
      exact Nat.pow_dvd_pow 2 (by omega)

/-- A double above stays above. -/
theorem round_le (x y : Nat) (hy : IsDbl y) (h : x ≤ y) : Dbl.round x 1 ≤ y := by
  rcases Nat.lt_or_ge x (2 ^ 53) with hx | hx
  · rw [round_small x hx]; exact h
  · rw [round_big x hx]
    have hx0 : x ≠ 0 := by omega
    have h53 := log2_ge hx
    have hs := Nat.two_pow_pos (Nat.log2 x - 52)
    have key : ∀ z, x ≤ z → 2 ^ (Nat.log2 x - 52) ∣ z → roundHalfEven x (2 ^ (Nat.log2 x - 52)) * 2 ^ (Nat.log2 x - 52) ≤ z := by
      rintro z hz ⟨k, hk⟩
      rw [hk, Nat.mul_comm (2 ^ (Nat.log2 x - 52)) k]
      exact Nat.mul_le_mul_right _ (roundHalfEven_le _ _ _ hs (by rw [Nat.mul_comm, ← hk]; exact hz))
    by_cases hl : y < 2 ^ (Nat.log2 x + 1)
    · apply key y h
      rcases hy with hy | hy
      · omega
      · have hy0 : y ≠ 0 := by omega
        have h1 : Nat.log2 x ≤ Nat.log2 y := log2_mono hx0 h
        have h2 : Nat.log2 y < Nat.log2 x + 1 := (Nat.log2_lt hy0).2 hl
        rw [show Nat.log2 x = Nat.log2 y from by omega]
        exact hy
    · refine Nat.le_trans (key (2 ^ (Nat.log2 x + 1)) (Nat.le_of_lt Nat.lt_log2_self) (Nat.pow_dvd_pow 2 (by omega))) (by omega)

/-- The same for fractions. -/
theorem round_le_mul (num den y : Nat) (hd : 0 < den) (hy : IsDbl y) (h : num ≤ y * den) : Dbl.round num den ≤ y := by
  unfold Dbl.round
  split
  · exact roundHalfEven_le _ _ _ hd h
  · rename_i hx
    have hq0 : num / den ≠ 0 := by omega
    have h53 := log2_ge (x := num / den) (by omega)
    have hs := Nat.two_pow_pos (Nat.log2 (num / den) - 52)
    have key : ∀ z, num ≤ z * den → 2 ^ (Nat.log2 (num / den) - 52) ∣ z →
        roundHalfEven num (den * 2 ^ (Nat.log2 (num / den) - 52)) * 2 ^ (Nat.log2 (num / den) - 52) ≤ z := by
      rintro z hz ⟨k, hk⟩
      have hz' : num ≤ k * (den * 2 ^ (Nat.log2 (num / den) - 52)) := by
        refine Nat.le_trans hz (Nat.le_of_eq ?_)
        conv => lhs; rw [hk]
        rw [Nat.mul_comm _ k, Nat.mul_assoc, Nat.mul_comm _ den]
      conv => rhs; rw [hk, Nat.mul_comm (2 ^ (Nat.log2 (num / den) - 52)) k]
      exact Nat.mul_le_mul_right _ (roundHalfEven_le _ _ _ (Nat.mul_pos hd hs) hz')
    have hqy : num / den ≤ y := Nat.div_le_of_le_mul (by rw [Nat.mul_comm den]; exact h)
    by_cases hl : y < 2 ^ (Nat.log2 (num / den) + 1)
    · apply key y h
      rcases hy with hy | hy
      · omega
      · have hy0 : y ≠ 0 := by omega
        have h1 : Nat.log2 (num / den) ≤ Nat.log2 y := log2_mono hq0 hqy
        have h2 : Nat.log2 y < Nat.log2 (num / den) + 1 := (Nat.log2_lt hy0).2 hl
        rw [show Nat.log2 (num / den) = Nat.log2 y from by omega]
        exact hy
    · refine Nat.le_trans (key (2 ^ (Nat.log2 (num / den) + 1)) ?_ (Nat.pow_dvd_pow 2 (by omega))) (by omega)
      have : num / den < 2 ^ (Nat.log2 (num / den) + 1) := Nat.lt_log2_self
      have := (Nat.div_lt_iff_lt_mul hd).1 this
      exact Nat.le_of_lt this

/-- The relative error of rounding is at most `2 ^ -53`. -/
theorem round_err (num den : Nat) (hd : 0 < den) (h : 2 ^ 53 ≤ num / den) :
    Dbl.round num den * den * 2 ^ 53 ≤ num * (2 ^ 53 + 1) ∧ num * (2 ^ 53 - 1) ≤ Dbl.round num den * den * 2 ^ 53 := by
  unfold Dbl.round
  rw [if_neg (by omega)]
  have hq0 : num / den ≠ 0 := by omega
  have h53 := log2_ge h
  have hle := Nat.log2_self_le hq0
  have hs := Nat.two_pow_pos (Nat.log2 (num / den) - 52)
  have hsplit : 2 ^ Nat.log2 (num / den) = 2 ^ (Nat.log2 (num / den) - 52) * 2 ^ 52 := by
    rw [← Nat.pow_add]
    congr 1
    omega
  have hmul : den * (num / den) ≤ num := Nat.mul_div_le num den
  obtain ⟨e1, e2⟩ := roundHalfEven_err num (den * 2 ^ (Nat.log2 (num / den) - 52)) (Nat.mul_pos hd hs)
  have hds : den * 2 ^ (Nat.log2 (num / den) - 52) * 2 ^ 52 ≤ num := by
    rw [Nat.mul_assoc, ← hsplit]
    exact Nat.le_trans (Nat.mul_le_mul_left den hle) hmul
  have hR : roundHalfEven num (den * 2 ^ (Nat.log2 (num / den) - 52)) * 2 ^ (Nat.log2 (num / den) - 52) * den =
      roundHalfEven num (den * 2 ^ (Nat.log2 (num / den) - 52)) * (den * 2 ^ (Nat.log2 (num / den) - 52)) := by
    rw [Nat.mul_assoc, Nat.mul_comm (2 ^ _) den]
  rw [hR]
  generalize roundHalfEven num (den * 2 ^ (Nat.log2 (num / den) - 52)) * (den * 2 ^ (Nat.log2 (num / den) - 52)) = a at *
  generalize den * 2 ^ (Nat.log2 (num / den) - 52) = b at *
  clear hR hmul hsplit hs hle h53 hq0 h hd
  have p53 : (2 : Nat) ^ 53 = 2 * 2 ^ 52 := rfl
  have p52 : 0 < (2 : Nat) ^ 52 := Nat.two_pow_pos 52
  rw [p53]
  generalize (2 : Nat) ^ 52 = c at *
  have h1 := Nat.mul_le_mul_right c e1
  have h2 := Nat.mul_le_mul_right c e2
  rw [Nat.add_mul] at h1 h2
  have e3 : 2 * a * c = a * (2 * c) := by rw [Nat.mul_comm 2 a, Nat.mul_assoc]
  have e4 : 2 * num * c = num * (2 * c) := by rw [Nat.mul_comm 2 num, Nat.mul_assoc]
  rw [e3, e4] at h1 h2
  rw [Nat.mul_add, Nat.mul_sub, Nat.mul_one]
  generalize a * (2 * c) = x at *
  generalize num * (2 * c) = y at *
  generalize b * c = z at *
  constructor <;> omega

/-- The same for numbers of units of any size. -/
theorem round_err_one (x : Nat) : Dbl.round x 1 * 2 ^ 53 ≤ x * (2 ^ 53 + 1) ∧ x * (2 ^ 53 - 1) ≤ Dbl.round x 1 * 2 ^ 53 := by
  rcases Nat.lt_or_ge x (2 ^ 53) with hx | hx
  · rw [round_small x hx]
    constructor <;> omega
  · have := round_err x 1 (by omega) (by rw [Nat.div_one]; exact hx)
    simpa using this

theorem dbl_pow_mul (m k : Nat) (h : m ≤ 2 ^ 53) : IsDbl (m * 2 ^ k) := by
  by_cases hm : m = 0
  · left; rw [hm, Nat.zero_mul]; exact Nat.two_pow_pos _
  · by_cases hlt : m < 2 ^ 53
    · right
      have hl : Nat.log2 (m * 2 ^ k) ≤ 52 + k := by
        have : Nat.log2 (m * 2 ^ k) < 53 + k := by
          rw [Nat.log2_lt (by have := Nat.mul_pos (Nat.pos_of_ne_zero hm) (Nat.two_pow_pos k); omega), Nat.pow_add]
          exact Nat.mul_lt_mul_of_pos_right hlt (Nat.two_pow_pos k)
        omega
      exact Nat.dvd_trans (Nat.pow_dvd_pow 2 (by omega)) (Nat.dvd_mul_left (2 ^ k) m)
    · have : m = 2 ^ 53 := by omega
      subst this
      right
      rw [← Nat.pow_add, Nat.log2_two_pow]
      exact Nat.pow_dvd_pow 2 (by omega)

/-- Rounding gives a double. -/
theorem isDbl_round (num den : Nat) (hd : 0 < den) : IsDbl (Dbl.round num den) := by
  unfold Dbl.round
  split
  · rename_i hq
    have hle : roundHalfEven num den ≤ 2 ^ 53 := by
      apply roundHalfEven_le _ _ _ hd
      exact Nat.le_of_lt ((Nat.div_lt_iff_lt_mul hd).1 hq)
    have := dbl_pow_mul _ 0 hle
    rw [Nat.pow_zero, Nat.mul_one] at this
    exact this
  · rename_i hq
    apply dbl_pow_mul
    have h53 := log2_ge (x := num / den) (by omega)
    apply roundHalfEven_le _ _ _ (Nat.mul_pos hd (Nat.two_pow_pos _))
    have : num / den < 2 ^ (Nat.log2 (num / den) + 1) := Nat.lt_log2_self
    have := (Nat.div_lt_iff_lt_mul hd).1 this
    have e : 2 ^ (Nat.log2 (num / den) + 1) = 2 ^ 53 * 2 ^ (Nat.log2 (num / den) - 52) := by
      rw [← Nat.pow_add]
      congr 1
      omega
    rw [e, Nat.mul_assoc, Nat.mul_comm _ den] at this
    exact Nat.le_of_lt this

theorem isDbl_pow (k : Nat) : IsDbl (2 ^ k) := by
  have := dbl_pow_mul 1 k (by omega)
  rw [Nat.one_mul] at this
  exact this

theorem isDbl_whole (m : Nat) (h : m ≤ 2 ^ 53) : IsDbl (m * Dbl.one) := by
  rw [one_eq]
  exact dbl_pow_mul m 1074 h

theorem ofNat_exact (n : Nat) (h : n ≤ 2 ^ 53) : Dbl.ofNat n = n * Dbl.one := round_dbl _ (isDbl_whole n h)

/-- `int(n * x)` in units. -/
theorem scale_eq (n : Nat) (h : n ≤ 2 ^ 53) (x : Nat) : Dbl.scale n x = Dbl.round (n * x) 1 / Dbl.one := by
  unfold Dbl.scale Dbl.mul Dbl.toInt
  rw [ofNat_exact n h]
  have e : n * Dbl.one * x = n * x * Dbl.one := by rw [Nat.mul_assoc, Nat.mul_assoc, Nat.mul_comm x]
  have e2 : Dbl.round (n * x * Dbl.one) Dbl.one = Dbl.round (n * x) 1 := by
    have := round_scale (n * x) 1 Dbl.one one_pos
    rw [Nat.one_mul] at this
    exact this
  rw [e, e2]

/-- The number of samples for a ratio: not above the product but for rounding, and less than one below it. -/
theorem scale_bounds (n : Nat) (h : n < 2 ^ 53) (x : Nat) (hx : x ≤ Dbl.one) :
    Dbl.scale n x ≤ n ∧ Dbl.scale n x * Dbl.one * 2 ^ 53 ≤ n * x * (2 ^ 53 + 1) ∧ n * x < (Dbl.scale n x + 1) * Dbl.one := by
  rw [scale_eq n (by omega) x]
  have h1 : Dbl.round (n * x) 1 ≤ n * Dbl.one := round_le _ _ (isDbl_whole n (by omega)) (Nat.mul_le_mul_left n hx)
  have hc : Dbl.round (n * x) 1 / Dbl.one ≤ n := Nat.div_le_of_le_mul (by rw [Nat.mul_comm Dbl.one]; exact h1)
  refine ⟨hc, ?_, ?_⟩
  · refine Nat.le_trans (Nat.mul_le_mul_right _ (Nat.div_mul_le_self _ _)) (round_err_one _).1
  · apply Nat.lt_of_not_le
    intro hge
    have := le_round _ _ (isDbl_whole (Dbl.round (n * x) 1 / Dbl.one + 1) (by omega)) hge
    have := (Nat.le_div_iff_mul_le one_pos).2 this
    omega

/-- Subtracting one is exact. -/
theorem sub_exact (s : Nat) (hd : IsDbl s) (h1 : Dbl.one ≤ s) (h2 : s < 2 ^ 53 * Dbl.one) : IsDbl (s - Dbl.one) ∧ Dbl.sub s Dbl.one = s - Dbl.one := by
  have hdbl : IsDbl (s - Dbl.one) := by
    by_cases hz : s - Dbl.one < 2 ^ 53
    · exact .inl hz
    · right
      have h1074 : 2 ^ 53 ≤ Dbl.one := by
        rw [one_eq]
        exact Nat.pow_le_pow_right (by omega) (by omega)
      rcases hd with hd | hd
      · omega
      · have hl : Nat.log2 s ≤ 1126 := by
          have : Nat.log2 s < 1127 := by
            rw [Nat.log2_lt (by omega)]
            have : 2 ^ 53 * Dbl.one = 2 ^ 1127 := by rw [one_eq, ← Nat.pow_add]
            omega
          omega
        have hl2 : Nat.log2 (s - Dbl.one) ≤ Nat.log2 s := log2_mono (by omega) (by omega)
        refine Nat.dvd_trans (Nat.pow_dvd_pow 2 (Nat.sub_le_sub_right hl2 52)) ?_
        rw [one_eq]
        exact Nat.dvd_sub hd (Nat.pow_dvd_pow 2 (by omega))
  exact ⟨hdbl, round_dbl _ hdbl⟩

theorem floatCopies_eq {α : Type} (perm : Nat → Option (List Nat → List Nat)) (n : Nat) : ∀ (fuel k : Nat) (chunks : List α) (roi : List Roi) (s : Nat), IsDbl s →
    s < 2 ^ 53 * Dbl.one → s / Dbl.one = n → n < fuel →
    floatCopies perm fuel k chunks roi s = (wholeCopies perm chunks roi k n).map fun r => (r.1, r.2.1, r.2.2.1, r.2.2.2, k + n, s % Dbl.one) := by
  induction n with
  | zero =>
    intro fuel k chunks roi s hd hs hn hf
    cases fuel with
    | zero => omega
    | succ fuel =>
      have hlt : s < Dbl.one := by
        rcases Nat.lt_or_ge s Dbl.one with h | h
        · exact h
        · have := (Nat.le_div_iff_mul_le one_pos).2 (by rw [Nat.one_mul]; exact h)
          omega
      simp only [floatCopies, hlt, if_true, wholeCopies, Except.map, Nat.mod_eq_of_lt hlt, Nat.add_zero]
  | succ n ih =>
    intro fuel k chunks roi s hd hs hn hf
    cases fuel with
    | zero => omega
    | succ fuel =>
      have hge : Dbl.one ≤ s := by
        have : 1 ≤ s / Dbl.one := by omega
        have := (Nat.le_div_iff_mul_le one_pos).1 this
        omega
      obtain ⟨hd', he⟩ := sub_exact s hd hge hs
      have hmod : (s - Dbl.one) % Dbl.one = s % Dbl.one := by
        rw [Nat.mod_eq_sub_mod hge]
      have hdiv : (s - Dbl.one) / Dbl.one = n := by
        have := Nat.div_eq_sub_div one_pos hge
        omega
      simp only [floatCopies, if_neg (Nat.not_lt.2 hge), wholeCopies, he]
      cases maybeShuffle (perm k) chunks roi with
      | error e => rfl
      | ok r =>
        simp only
        rw [ih fuel (k + 1) r.1 r.2 (s - Dbl.one) hd' (by omega) hdiv (by omega)]
        cases wholeCopies perm r.1 r.2 (k + 1) n with
        | error e => rfl
        | ok q =>
          simp only [Except.map, hmod, Except.ok.injEq, Prod.mk.injEq, true_and, and_true]
          omega

/-- The double of a fraction. -/
theorem ratio_err (p q : Nat) (hp : 0 < p) (hq : 0 < q) (hq' : q ≤ 2 ^ 1000) :
    Dbl.ofRatio p q * q * 2 ^ 53 ≤ p * Dbl.one * (2 ^ 53 + 1) ∧ p * Dbl.one * (2 ^ 53 - 1) ≤ Dbl.ofRatio p q * q * 2 ^ 53 := by
  apply round_err _ _ hq
  rw [Nat.le_div_iff_mul_le hq]
  have h1 : 2 ^ 53 * q ≤ 2 ^ 53 * 2 ^ 1000 := Nat.mul_le_mul_left _ hq'
  have h2 : (2 : Nat) ^ 53 * 2 ^ 1000 ≤ Dbl.one := by
    rw [one_eq, ← Nat.pow_add]
    exact Nat.pow_le_pow_right (by omega) (by omega)
  have h3 : Dbl.one ≤ p * Dbl.one := Nat.le_mul_of_pos_left _ hp
  exact Nat.le_trans h1 (Nat.le_trans h2 h3)

theorem isDbl_ofRatio (p q : Nat) (hq : 0 < q) : IsDbl (Dbl.ofRatio p q) := isDbl_round _ _ hq

theorem ratio_le_one (p q : Nat) (hq : 0 < q) (h : p ≤ q) : Dbl.ofRatio p q ≤ Dbl.one := by
  have hd : IsDbl Dbl.one := by rw [one_eq]; exact isDbl_pow 1074
  apply round_le_mul _ _ _ hq hd
  rw [Nat.mul_comm Dbl.one q]
  exact Nat.mul_le_mul_right _ h

/-- `int(n * x)` for the double of a fraction. -/
theorem scale_ratio (n p q : Nat) (hq : 0 < q) (hq' : q ≤ 2 ^ 1000) (hpq : p ≤ q) (hn : n < 2 ^ 53) (hnp : n * p < 2 ^ 51) :
    Dbl.scale n (Dbl.ofRatio p q) = n * p / q ∨ (q ∣ n * p ∧ Dbl.scale n (Dbl.ofRatio p q) + 1 = n * p / q) := by
  by_cases hp : p = 0
  · left
    subst hp
    have : Dbl.ofRatio 0 q = 0 := by
      have := round_le_mul (0 * Dbl.one) q 0 hq (.inl (Nat.two_pow_pos _)) (by omega)
      unfold Dbl.ofRatio
      omega
    rw [this, scale_eq n (by omega), Nat.mul_zero, Nat.zero_div, round_small 0 (Nat.two_pow_pos _), Nat.zero_div]
  · obtain ⟨r1, r2⟩ := ratio_err p q (by omega) hq hq'
    obtain ⟨_, b1, b2⟩ := scale_bounds n hn (Dbl.ofRatio p q) (ratio_le_one p q hq hpq)
    generalize Dbl.scale n (Dbl.ofRatio p q) = c at *
    generalize Dbl.ofRatio p q = r at *
    have h1 := one_pos
    generalize Dbl.one = one at *
    -- at most the floor
    have up : c * q ≤ n * p := by
      have e1 : c * one * 2 ^ 53 * (q * 2 ^ 53) ≤ n * r * (2 ^ 53 + 1) * (q * 2 ^ 53) := Nat.mul_le_mul_right _ b1
      have e2 : n * (2 ^ 53 + 1) * (r * q * 2 ^ 53) ≤ n * (2 ^ 53 + 1) * (p * one * (2 ^ 53 + 1)) := Nat.mul_le_mul_left _ r1
      have e3 : c * q * (2 ^ 53 * 2 ^ 53) * one ≤ n * p * ((2 ^ 53 + 1) * (2 ^ 53 + 1)) * one := by
        calc c * q * (2 ^ 53 * 2 ^ 53) * one = c * one * 2 ^ 53 * (q * 2 ^ 53) := by ac_rfl
          _ ≤ n * r * (2 ^ 53 + 1) * (q * 2 ^ 53) := e1
          _ = n * (2 ^ 53 + 1) * (r * q * 2 ^ 53) := by ac_rfl
          _ ≤ n * (2 ^ 53 + 1) * (p * one * (2 ^ 53 + 1)) := e2
          _ = n * p * ((2 ^ 53 + 1) * (2 ^ 53 + 1)) * one := by ac_rfl
      have e4 := Nat.le_of_mul_le_mul_right e3 h1
      generalize c * q = x at *
      generalize n * p = y at *
      omega
    -- at most one below
    have down : n * p ≤ (c + 1) * q := by
      have e1 : n * (p * one * (2 ^ 53 - 1)) ≤ n * (r * q * 2 ^ 53) := Nat.mul_le_mul_left _ r2
      have e2 : n * r * (q * 2 ^ 53) ≤ (c + 1) * one * (q * 2 ^ 53) := Nat.mul_le_mul_right _ (Nat.le_of_lt b2)
      have e3 : n * p * (2 ^ 53 - 1) * one ≤ (c + 1) * q * 2 ^ 53 * one := by
        calc n * p * (2 ^ 53 - 1) * one = n * (p * one * (2 ^ 53 - 1)) := by ac_rfl
          _ ≤ n * (r * q * 2 ^ 53) := e1
          _ = n * r * (q * 2 ^ 53) := by ac_rfl
          _ ≤ (c + 1) * one * (q * 2 ^ 53) := e2
          _ = (c + 1) * q * 2 ^ 53 * one := by ac_rfl
      have e4 := Nat.le_of_mul_le_mul_right e3 h1
      generalize (c + 1) * q = x at *
      generalize n * p = y at *
      omega
    rcases Nat.lt_or_ge (n * p) ((c + 1) * q) with h | h
    · left
      have l1 : c ≤ n * p / q := (Nat.le_div_iff_mul_le hq).2 up
      have l2 : n * p / q < c + 1 := (Nat.div_lt_iff_lt_mul hq).2 h
      omega
    · right
      have he : n * p = (c + 1) * q := by omega
      exact ⟨⟨c + 1, by rw [he, Nat.mul_comm]⟩, by rw [he, Nat.mul_div_cancel _ hq]⟩

/-- The sum of the doubles, against their sum in floating point. -/
theorem floatSum_err (l : List Nat) : ∀ acc : Nat, l.length ≤ 2 ^ 53 → (acc + l.sum) * (2 ^ 53 - l.length) ≤ l.foldl Dbl.add acc * 2 ^ 53 := by
  induction l with
  | nil => intro acc _; simp
  | cons a l ih =>
    intro acc hl
    rw [List.length_cons] at hl
    have h1 := ih (Dbl.add acc a) (by omega)
    have h2 := (round_err_one (acc + a)).2
    rw [List.foldl_cons, List.sum_cons, List.length_cons]
    generalize l.foldl Dbl.add (Dbl.add acc a) = t at *
    have h2 : (acc + a) * (2 ^ 53 - 1) ≤ Dbl.add acc a * 2 ^ 53 := h2
    generalize Dbl.add acc a = b at *
    generalize l.sum = s at *
    generalize l.length = k at *
    have hP : 0 < (2 : Nat) ^ 53 := Nat.two_pow_pos 53
    generalize (2 : Nat) ^ 53 = P at *
    apply Nat.le_of_mul_le_mul_right _ hP
    have e1 : (b + s) * (P - k) * P ≤ t * P * P := Nat.mul_le_mul_right _ h1
    have e2 : (acc + a + s) * (P - 1) ≤ (b + s) * P := by
      have : s * (P - 1) ≤ s * P := Nat.mul_le_mul_left _ (by omega)
      rw [Nat.add_mul (acc + a), Nat.add_mul b]
      omega
    have e3 : (P - (k + 1)) * P ≤ (P - 1) * (P - k) := by
      obtain ⟨d, rfl⟩ : ∃ d, P = k + 1 + d := ⟨P - (k + 1), by omega⟩
      have a1 : k + 1 + d - (k + 1) = d := by omega
      have a2 : k + 1 + d - 1 = k + d := by omega
      have a3 : k + 1 + d - k = 1 + d := by omega
      rw [a1, a2, a3]
      have b1 : d * (k + 1 + d) = d * k + d + d * d := by rw [Nat.mul_add, Nat.mul_add, Nat.mul_one]
      have b2 : (k + d) * (1 + d) = k + k * d + (d + d * d) := by rw [Nat.add_mul, Nat.mul_add, Nat.mul_add, Nat.mul_one, Nat.mul_one]
      rw [b1, b2, Nat.mul_comm k d]
      omega
    calc (acc + (a + s)) * (P - (k + 1)) * P = (acc + a + s) * ((P - (k + 1)) * P) := by rw [Nat.mul_assoc, Nat.add_assoc]
      _ ≤ (acc + a + s) * ((P - 1) * (P - k)) := Nat.mul_le_mul_left _ e3
      _ = (acc + a + s) * (P - 1) * (P - k) := by rw [Nat.mul_assoc]
      _ ≤ (b + s) * P * (P - k) := Nat.mul_le_mul_right _ e2
      _ = (b + s) * (P - k) * P := by ac_rfl
      _ ≤ t * P * P := e1

/-- Ratios whose sum in floating point is at most one ask for no more samples than there are. -/
theorem counts_le (n : Nat) (l : List Nat) (h1 : ∀ x ∈ l, x ≤ Dbl.one) (hs : floatSum l ≤ Dbl.one) (hn : (n + 1) * (l.length + 1) ≤ 2 ^ 53) :
    (l.map fun x => Dbl.scale n x).sum ≤ n := by
  have hn1 : n + 1 ≤ 2 ^ 53 := Nat.le_trans (Nat.le_mul_of_pos_right _ (by omega)) hn
  have hk1 : l.length + 1 ≤ 2 ^ 53 := Nat.le_trans (Nat.le_mul_of_pos_left _ (by omega)) hn
  have e1 : (l.map fun x => Dbl.scale n x).sum * Dbl.one * 2 ^ 53 ≤ n * l.sum * (2 ^ 53 + 1) := by
    clear hs hn hk1
    induction l with
    | nil => simp
    | cons a l ih =>
      rw [List.map_cons, List.sum_cons, List.sum_cons, Nat.add_mul, Nat.add_mul, Nat.mul_add n, Nat.add_mul (n * a)]
      exact Nat.add_le_add (scale_bounds n (by omega) a (h1 a (by simp))).2.1 (ih (fun x hx => h1 x (by simp [hx])))
  have e2 := floatSum_err l 0 (by omega)
  rw [Nat.zero_add] at e2
  have e3 : l.sum * (2 ^ 53 - l.length) ≤ Dbl.one * 2 ^ 53 := Nat.le_trans e2 (Nat.mul_le_mul_right _ hs)
  have hone := one_pos
  generalize Dbl.one = one at *
  generalize (l.map fun x => Dbl.scale n x).sum = c at *
  generalize l.sum = s at *
  generalize l.length = k at *
  have hP : 0 < (2 : Nat) ^ 53 := Nat.two_pow_pos 53
  generalize (2 : Nat) ^ 53 = P at *
  have e4 : c * (P - k) * (one * P) ≤ n * (P + 1) * (one * P) := by
    calc c * (P - k) * (one * P) = c * one * P * (P - k) := by ac_rfl
      _ ≤ n * s * (P + 1) * (P - k) := Nat.mul_le_mul_right _ e1
      _ = n * (P + 1) * (s * (P - k)) := by ac_rfl
      _ ≤ n * (P + 1) * (one * P) := Nat.mul_le_mul_left _ e3
  have e5 := Nat.le_of_mul_le_mul_right e4 (Nat.mul_pos hone hP)
  apply Nat.le_of_not_lt
  intro hc
  have e6 : (n + 1) * (P - k) ≤ c * (P - k) := Nat.mul_le_mul_right _ hc
  obtain ⟨d, rfl⟩ : ∃ d, P = k + 1 + d := ⟨P - (k + 1), by omega⟩
  have a3 : k + 1 + d - k = 1 + d := by omega
  rw [a3] at e5 e6
  have e7 := Nat.le_trans e6 e5
  have b1 : (n + 1) * (1 + d) = n + n * d + 1 + d := by rw [Nat.add_mul, Nat.mul_add, Nat.mul_one, Nat.one_mul, Nat.add_assoc (n + n * d)]
  have b2 : n * (k + 1 + d + 1) = n * k + n + n * d + n := by rw [Nat.mul_add, Nat.mul_add, Nat.mul_add, Nat.mul_one]
  have b3 : (n + 1) * (k + 1) = n * k + n + k + 1 := by rw [Nat.add_mul, Nat.mul_add, Nat.mul_one, Nat.one_mul, Nat.add_assoc (n * k + n)]
  rw [b1, b2] at e7
  rw [b3] at hn
  omega

/-- Two ratios whose sum is at most one are not refused. -/
theorem two_ratios (p q r : Nat) (hr : 0 < r) (hr' : r ≤ 2 ^ 1000) (h : p + q ≤ r) (hp : 0 < p) (hq : 0 < q) : Dbl.add (Dbl.ofRatio p r) (Dbl.ofRatio q r) ≤ Dbl.one := by
  have h1 := (ratio_err p r hp hr hr').1
  have h2 := (ratio_err q r hq hr hr').1
  unfold Dbl.add
  generalize Dbl.ofRatio p r = x at *
  generalize Dbl.ofRatio q r = y at *
  have hxy : (x + y) * 2 ^ 53 ≤ Dbl.one * (2 ^ 53 + 1) := by
    apply Nat.le_of_mul_le_mul_right _ hr
    calc (x + y) * 2 ^ 53 * r = x * r * 2 ^ 53 + y * r * 2 ^ 53 := by
          rw [Nat.add_mul, Nat.add_mul]
          ac_rfl
      _ ≤ p * Dbl.one * (2 ^ 53 + 1) + q * Dbl.one * (2 ^ 53 + 1) := Nat.add_le_add h1 h2
      _ = (p + q) * (Dbl.one * (2 ^ 53 + 1)) := by rw [Nat.add_mul, Nat.mul_assoc, Nat.mul_assoc]
      _ ≤ r * (Dbl.one * (2 ^ 53 + 1)) := Nat.mul_le_mul_right _ h
      _ = Dbl.one * (2 ^ 53 + 1) * r := by rw [Nat.mul_comm]
  have hd : IsDbl Dbl.one := by rw [one_eq]; exact isDbl_pow 1074
  rcases Nat.lt_or_ge (x + y) Dbl.one with hlt | hge
  · exact round_le _ _ hd (Nat.le_of_lt hlt)
  · have hsplit : Dbl.one = 2 ^ 1021 * 2 ^ 53 := by rw [one_eq, ← Nat.pow_add]
    have hsum : x + y ≤ Dbl.one + 2 ^ 1021 := by
      apply Nat.le_of_mul_le_mul_right _ (Nat.two_pow_pos 53)
      rw [Nat.add_mul Dbl.one, ← hsplit]
      rw [Nat.mul_add, Nat.mul_one] at hxy
      exact hxy
    have hbig : 2 ^ 53 ≤ x + y := by
      refine Nat.le_trans ?_ hge
      rw [one_eq]
      exact Nat.pow_le_pow_right (by omega) (by omega)
    have hlog : Nat.log2 (x + y) = 1074 := by
      have l1 : 1074 ≤ Nat.log2 (x + y) := by
        rw [Nat.le_log2 (by omega), ← one_eq]
        exact hge
      have l2 : Nat.log2 (x + y) < 1075 := by
        rw [Nat.log2_lt (by omega)]
        have p1 : (2 : Nat) ^ 1075 = Dbl.one + Dbl.one := by rw [one_eq, Nat.pow_succ]; omega
        have p2 : 2 ^ 1021 < Dbl.one := by rw [one_eq]; exact Nat.pow_lt_pow_right (by omega) (by omega)
        omega
      omega
    rw [round_big _ hbig, hlog]
    have e : Dbl.one = 2 ^ 52 * 2 ^ (1074 - 52) := by rw [one_eq, ← Nat.pow_add]
    have hR : roundHalfEven (x + y) (2 ^ (1074 - 52)) ≤ 2 ^ 52 := by
      have e2 : 2 ^ (1074 - 52) = 2 * 2 ^ 1021 := by
        rw [← Nat.pow_succ']
      have hs := Nat.two_pow_pos 1021
      obtain ⟨d, hd'⟩ : ∃ d, x + y = 2 ^ 52 * 2 ^ (1074 - 52) + d := ⟨x + y - Dbl.one, by rw [← e]; omega⟩
      have hd'' : d ≤ 2 ^ 1021 := by rw [← e] at hd'; omega
      rw [hd', e2]
      generalize (2 : Nat) ^ 1021 = t at *
      have hdiv : (2 ^ 52 * (2 * t) + d) / (2 * t) = 2 ^ 52 := by
        rw [Nat.mul_comm, Nat.mul_add_div (by omega), Nat.div_eq_of_lt (by omega), Nat.add_zero]
      have hmod : (2 ^ 52 * (2 * t) + d) % (2 * t) = d := by
        rw [Nat.mul_comm, Nat.mul_add_mod, Nat.mod_eq_of_lt (by omega)]
      unfold roundHalfEven
      rw [hdiv, hmod]
      dsimp only
      split
      · exact Nat.le_refl _
      · rw [if_neg (by omega), if_pos (by decide)]
        exact Nat.le_refl _
    rw [e]
    exact Nat.mul_le_mul_right _ hR

end LitData
