import Verif.Model.Format

/-! Lemmas about float literals and doubles. -/

namespace LitData

theorem pow2_pos (n : Nat) : 0 < 2 ^ n := Nat.pow_pos (by decide)

/-- The exponent is small enough: `2 ^ (52 + e) ≤ num / den`. -/
theorem doubleExp_le (num den : Nat) (hn : num ≠ 0) :
    (scalePair num den (doubleExp num den)).2 * 2 ^ 52 ≤ (scalePair num den (doubleExp num den)).1 := by
  have h1 : 2 ^ Nat.log2 num ≤ num := Nat.log2_self_le hn
  have h2 : den < 2 ^ (Nat.log2 den + 1) := Nat.lt_log2_self
  generalize hk : (Nat.log2 num : Int) - (Nat.log2 den : Int) = k
  have key : ∀ e : Int, (scalePair num den e).2 ≤ (scalePair num den e).1 →
      (scalePair num den (e - 52)).2 * 2 ^ 52 ≤ (scalePair num den (e - 52)).1 := by
    intro e he
    simp only [scalePair] at he ⊢
    rcases Int.le_total 52 e with h | h
    · have e1 : (-e).toNat = 0 := by omega
      have e2 : (-(e - 52)).toNat = 0 := by omega
      have e3 : e.toNat = (e - 52).toNat + 52 := by omega
      rw [e1, e3, Nat.pow_add, ← Nat.mul_assoc] at he
      rw [e2]; exact he
    · rcases Int.le_total 0 e with h0 | h0
      · have e1 : (-e).toNat = 0 := by omega
        have e2 : (e - 52).toNat = 0 := by omega
        have e3 : (-(e - 52)).toNat + e.toNat = 52 := by omega
        rw [e1] at he
        rw [e2, Nat.pow_zero, Nat.mul_one, ← e3, Nat.pow_add, Nat.mul_comm (2 ^ _) (2 ^ e.toNat), ← Nat.mul_assoc]
        exact Nat.mul_le_mul_right _ (by simpa using he)
      · have e1 : e.toNat = 0 := by omega
        have e2 : (e - 52).toNat = 0 := by omega
        have e3 : (-(e - 52)).toNat = (-e).toNat + 52 := by omega
        rw [e1] at he
        rw [e2, e3, Nat.pow_add, ← Nat.mul_assoc]
        exact Nat.mul_le_mul_right _ he
  unfold doubleExp
  simp only [hk]
  split
  · exact key k (by assumption)
  · have : k - 53 = (k - 1) - 52 := by omega
    rw [this]
    refine key (k - 1) ?_
    simp only [scalePair]
    rcases Int.le_total 1 k with h | h
    · have e1 : (-(k - 1)).toNat = 0 := by omega
      rw [e1, Nat.pow_zero, Nat.mul_one]
      have e2 : (k - 1).toNat + (Nat.log2 den + 1) = Nat.log2 num := by omega
      calc den * 2 ^ (k - 1).toNat ≤ 2 ^ (Nat.log2 den + 1) * 2 ^ (k - 1).toNat := Nat.mul_le_mul_right _ (Nat.le_of_lt h2)
        _ = 2 ^ Nat.log2 num := by rw [Nat.mul_comm, ← Nat.pow_add, e2]
        _ ≤ num := h1
    · have e1 : (k - 1).toNat = 0 := by omega
      rw [e1, Nat.pow_zero, Nat.mul_one]
      have e2 : Nat.log2 num + (-(k - 1)).toNat = Nat.log2 den + 1 := by omega
      calc den ≤ 2 ^ (Nat.log2 den + 1) := Nat.le_of_lt h2
        _ = 2 ^ Nat.log2 num * 2 ^ (-(k - 1)).toNat := by rw [← Nat.pow_add, e2]
        _ ≤ num * 2 ^ (-(k - 1)).toNat := Nat.mul_le_mul_right _ h1

theorem roundHalfEven_exact (num den : Nat) (hd : 0 < den) (h : den ∣ num) : roundHalfEven num den * den = num := by
  unfold roundHalfEven
  have hr : num % den = 0 := Nat.mod_eq_zero_of_dvd h
  simp only [hr, Nat.mul_zero, hd, if_true]
  exact Nat.div_mul_cancel h

/-- A number `a / 2 ^ j` with `a < 2 ^ 53` is a double: it is not rounded. -/
theorem toDouble_exact (num den a j : Nat) (hd : 0 < den) (ha : a < 2 ^ 53) (h : num * 2 ^ j = a * den) :
    ∃ m e, toDouble num den = some (m, e) ∧ m * 2 ^ e.toNat * den = num * 2 ^ (-e).toNat := by
  unfold toDouble
  by_cases hz : num = 0
  · exact ⟨0, 0, by simp [hz], by simp [hz]⟩
  rw [if_neg hz]
  have hle := doubleExp_le num den hz
  generalize he : doubleExp num den = e at hle
  simp only [scalePair] at hle ⊢
  have hdvd : den * 2 ^ e.toNat ∣ num * 2 ^ (-e).toNat := by
    rcases Int.lt_or_le 0 e with h0 | h0
    · exfalso
      have e1 : (-e).toNat = 0 := by omega
      rw [e1, Nat.pow_zero, Nat.mul_one] at hle
      have h1 : den * 2 ^ e.toNat * 2 ^ 52 * 2 ^ j ≤ a * den := by rw [← h]; exact Nat.mul_le_mul_right _ hle
      have h2 : den * 2 ^ 53 ≤ den * 2 ^ e.toNat * 2 ^ 52 * 2 ^ j := by
        rw [Nat.mul_assoc, Nat.mul_assoc, ← Nat.pow_add, ← Nat.pow_add]
        exact Nat.mul_le_mul_left _ (Nat.pow_le_pow_right (by decide) (by omega))
      have h3 : a * den < 2 ^ 53 * den := Nat.mul_lt_mul_of_pos_right ha hd
      rw [Nat.mul_comm (2 ^ 53) den] at h3
      omega
    · have e1 : e.toNat = 0 := by omega
      rw [e1, Nat.pow_zero, Nat.mul_one] at hle ⊢
      rcases Nat.lt_or_ge (-e).toNat j with h1 | h1
      · exfalso
        have h2 : den * 2 ^ 52 * 2 ^ (j - (-e).toNat) ≤ num * 2 ^ (-e).toNat * 2 ^ (j - (-e).toNat) := Nat.mul_le_mul_right _ hle
        rw [Nat.mul_assoc num, ← Nat.pow_add, show (-e).toNat + (j - (-e).toNat) = j by omega, h, Nat.mul_assoc, ← Nat.pow_add] at h2
        have h4 : den * 2 ^ 53 ≤ den * 2 ^ (52 + (j - (-e).toNat)) := Nat.mul_le_mul_left _ (Nat.pow_le_pow_right (by decide) (by omega))
        have h3 : a * den < 2 ^ 53 * den := Nat.mul_lt_mul_of_pos_right ha hd
        rw [Nat.mul_comm (2 ^ 53) den] at h3
        omega
      · refine ⟨a * 2 ^ ((-e).toNat - j), ?_⟩
        rw [show num * 2 ^ (-e).toNat = num * 2 ^ j * 2 ^ ((-e).toNat - j) by rw [Nat.mul_assoc, ← Nat.pow_add]; congr 2; omega, h]
        rw [Nat.mul_comm a den, Nat.mul_assoc]
  have hex := roundHalfEven_exact _ _ (Nat.mul_pos hd (pow2_pos _)) hdvd
  obtain ⟨m, hm⟩ : ∃ m, m = roundHalfEven (num * 2 ^ (-e).toNat) (den * 2 ^ e.toNat) := ⟨_, rfl⟩
  rw [← hm] at hex
  have hm0 : m ≠ 0 := by
    intro h0
    rw [h0, Nat.zero_mul] at hex
    have := Nat.mul_pos (Nat.pos_of_ne_zero hz) (pow2_pos (-e).toNat)
    omega
  have hlog : (Nat.log2 m : Int) + e < 1024 := by
    have h1 : 2 ^ Nat.log2 m ≤ m := Nat.log2_self_le hm0
    rcases Int.lt_or_le 0 e with h0 | h0
    · exfalso
      have e1 : (-e).toNat = 0 := by omega
      rw [e1, Nat.pow_zero, Nat.mul_one] at hle
      have h1 : den * 2 ^ e.toNat * 2 ^ 52 * 2 ^ j ≤ a * den := by rw [← h]; exact Nat.mul_le_mul_right _ hle
      have h2 : den * 2 ^ 53 ≤ den * 2 ^ e.toNat * 2 ^ 52 * 2 ^ j := by
        rw [Nat.mul_assoc, Nat.mul_assoc, ← Nat.pow_add, ← Nat.pow_add]
        exact Nat.mul_le_mul_left _ (Nat.pow_le_pow_right (by decide) (by omega))
      have h3 : a * den < 2 ^ 53 * den := Nat.mul_lt_mul_of_pos_right ha hd
      rw [Nat.mul_comm (2 ^ 53) den] at h3
      omega
    · have e1 : e.toNat = 0 := by omega
      rw [e1, Nat.pow_zero, Nat.mul_one] at hex
      -- `m / 2 ^ (-e) = a / 2 ^ j < 2 ^ 53`
      have h2 : m * 2 ^ j = a * 2 ^ (-e).toNat := by
        have : m * 2 ^ j * den = a * 2 ^ (-e).toNat * den := by
          rw [show m * 2 ^ j * den = m * den * 2 ^ j by rw [Nat.mul_assoc, Nat.mul_comm (2 ^ j), ← Nat.mul_assoc], hex,
            show num * 2 ^ (-e).toNat * 2 ^ j = num * 2 ^ j * 2 ^ (-e).toNat by rw [Nat.mul_assoc, Nat.mul_comm (2 ^ _) (2 ^ j), ← Nat.mul_assoc], h,
            Nat.mul_assoc, Nat.mul_comm den, ← Nat.mul_assoc]
        exact Nat.eq_of_mul_eq_mul_right hd this
      have h3 : m < 2 ^ (53 + (-e).toNat) := by
        have : m * 2 ^ j < 2 ^ (53 + (-e).toNat) := by
          rw [h2, Nat.pow_add]; exact Nat.mul_lt_mul_of_pos_right ha (pow2_pos _)
        exact Nat.lt_of_le_of_lt (Nat.le_mul_of_pos_right _ (pow2_pos j)) this
      have h4 : Nat.log2 m < 53 + (-e).toNat := (Nat.pow_lt_pow_iff_right (by decide : 1 < 2)).1 (Nat.lt_of_le_of_lt h1 h3)
      omega
  refine ⟨m, e, by subst hm; exact if_pos hlog, ?_⟩
  rw [← hex, Nat.mul_assoc, Nat.mul_comm (2 ^ e.toNat) den]

/-- A literal whose value is `a / 2 ^ j`, times a ratio: no rounding up to `int`. -/
theorem scaledInt_exact (neg : Bool) (digits : Nat) (exp : Int) (ratio a j : Nat) (hr : 0 < ratio)
    (hv : digits * 10 ^ exp.toNat * 2 ^ j = a * 10 ^ (-exp).toNat) (ha : a * ratio < 2 ^ 53) :
    scaledInt (.fin neg digits exp) ratio = .ok (if neg then -((a * ratio / 2 ^ j : Nat) : Int) else ((a * ratio / 2 ^ j : Nat) : Int)) := by
  have ha1 : a < 2 ^ 53 := Nat.lt_of_le_of_lt (Nat.le_mul_of_pos_right _ hr) ha
  have hten : 0 < 10 ^ (-exp).toNat := Nat.pow_pos (by decide)
  obtain ⟨m, e, h1, h2⟩ := toDouble_exact _ _ a j hten ha1 hv
  -- the literal is `m * 2 ^ e = a / 2 ^ j`
  have h3 : m * 2 ^ e.toNat * 2 ^ j = a * 2 ^ (-e).toNat := by
    have : m * 2 ^ e.toNat * 2 ^ j * 10 ^ (-exp).toNat = a * 2 ^ (-e).toNat * 10 ^ (-exp).toNat := by
      rw [show m * 2 ^ e.toNat * 2 ^ j * 10 ^ (-exp).toNat = (m * 2 ^ e.toNat * 10 ^ (-exp).toNat) * 2 ^ j by
        rw [Nat.mul_assoc, Nat.mul_comm (2 ^ j), ← Nat.mul_assoc], h2,
        show digits * 10 ^ exp.toNat * 2 ^ (-e).toNat * 2 ^ j = digits * 10 ^ exp.toNat * 2 ^ j * 2 ^ (-e).toNat by
          rw [Nat.mul_assoc, Nat.mul_comm (2 ^ _) (2 ^ j), ← Nat.mul_assoc], hv, Nat.mul_assoc, Nat.mul_comm (10 ^ _), ← Nat.mul_assoc]
    exact Nat.eq_of_mul_eq_mul_right hten this
  have hv2 : m * ratio * 2 ^ e.toNat * 2 ^ j = a * ratio * 2 ^ (-e).toNat := by
    rw [show m * ratio * 2 ^ e.toNat * 2 ^ j = (m * 2 ^ e.toNat * 2 ^ j) * ratio by
      rw [Nat.mul_right_comm m, Nat.mul_right_comm _ ratio], h3, Nat.mul_right_comm]
  obtain ⟨m2, e2, h4, h5⟩ := toDouble_exact _ _ (a * ratio) j (pow2_pos (-e).toNat) ha hv2
  have h6 : m2 * 2 ^ e2.toNat * 2 ^ j = a * ratio * 2 ^ (-e2).toNat := by
    have : m2 * 2 ^ e2.toNat * 2 ^ j * 2 ^ (-e).toNat = a * ratio * 2 ^ (-e2).toNat * 2 ^ (-e).toNat := by
      rw [Nat.mul_right_comm, h5, Nat.mul_right_comm, hv2, Nat.mul_right_comm]
    exact Nat.eq_of_mul_eq_mul_right (pow2_pos _) this
  have h7 : truncDouble (m2, e2) = a * ratio / 2 ^ j := by
    unfold truncDouble
    rw [← Nat.mul_div_mul_right _ _ (pow2_pos j), h6, Nat.mul_comm (2 ^ (-e2).toNat) (2 ^ j), Nat.mul_div_mul_right _ _ (pow2_pos _)]
  unfold scaledInt
  simp only [literalDouble, mulDouble, h1, Option.bind_some, h4, h7]

theorem isDigit_not_space {c : Char} (h : c.isDigit = true) : isPySpace c = false := by
  simp only [Char.isDigit, Bool.and_eq_true, decide_eq_true_eq] at h
  unfold isPySpace
  simp only [Bool.or_eq_false_iff, beq_eq_false_iff_ne, ne_eq]
  refine ⟨⟨⟨⟨⟨⟨⟨⟨⟨?_, ?_⟩, ?_⟩, ?_⟩, ?_⟩, ?_⟩, ?_⟩, ?_⟩, ?_⟩, ?_⟩ <;> (rintro rfl; revert h; decide)

theorem isDigit_lower {c : Char} (h : c.isDigit = true) : c.toLower = c := by
  simp only [Char.isDigit, Bool.and_eq_true, decide_eq_true_eq] at h
  unfold Char.toLower
  rw [dif_neg]
  intro h2
  have h3 := h2.1
  have h4 := h.2
  simp only [UInt32.le_iff_toNat_le] at h3 h4
  revert h3 h4
  simp
  omega

end LitData

namespace LitData

theorem space_lower {c : Char} (h : isPySpace c = true) : c.toLower = c := by
  unfold isPySpace at h
  simp only [Bool.or_eq_true, beq_iff_eq] at h
  rcases h with ((((((((h | h) | h) | h) | h) | h) | h) | h) | h) | h <;> subst h <;> decide

/-- A letter changed by `toLower` is one of the 26 capitals. -/
theorem lower_cases (c : Char) : c.toLower = c ∨ ∃ n, n < 26 ∧ c = Char.ofNat (65 + n) := by
  by_cases h : c.val ≥ 'A'.val ∧ c.val ≤ 'Z'.val
  · right
    have h1 := h.1
    have h2 := h.2
    simp only [UInt32.le_iff_toNat_le, ge_iff_le] at h1 h2
    have e1 : 'A'.val.toNat = 65 := by decide
    have e2 : 'Z'.val.toNat = 90 := by decide
    rw [e1] at h1
    rw [e2] at h2
    refine ⟨c.toNat - 65, ?_, ?_⟩
    · change c.val.toNat - 65 < 26; omega
    · have : 65 + (c.toNat - 65) = c.toNat := by change 65 + (c.val.toNat - 65) = c.val.toNat; omega
      rw [this, Char.ofNat_toNat]
  · left; unfold Char.toLower; rw [dif_neg h]

theorem lower_space (c : Char) : isPySpace c.toLower = isPySpace c := by
  rcases lower_cases c with h | ⟨n, hn, rfl⟩
  · rw [h]
  · revert n; decide

theorem lower_idem (c : Char) : c.toLower.toLower = c.toLower := by
  rcases lower_cases c with h | ⟨n, hn, rfl⟩
  · rw [h, h]
  · revert n; decide

theorem pyLower_idem (s : List Char) : pyLower (pyLower s) = pyLower s := by
  simp only [pyLower, List.map_map]
  exact List.map_congr_left fun c _ => lower_idem c

theorem dropWhile_idem {α} (p : α → Bool) (l : List α) : (l.dropWhile p).dropWhile p = l.dropWhile p := by
  induction l with
  | nil => rfl
  | cons a l ih =>
    by_cases h : p a = true
    · rw [List.dropWhile_cons_of_pos h, ih]
    · rw [List.dropWhile_cons_of_neg h, List.dropWhile_cons_of_neg h]

theorem dropWhile_all {α} (p : α → Bool) (w l : List α) (h : ∀ c ∈ w, p c = true) : (w ++ l).dropWhile p = l.dropWhile p := by
  induction w with
  | nil => rfl
  | cons a w ih =>
    rw [List.cons_append, List.dropWhile_cons_of_pos (h a (by simp)), ih fun c hc => h c (List.mem_cons_of_mem _ hc)]

theorem dropWhile_none {α} (p : α → Bool) (l : List α) (h : ∀ c ∈ l.head?, p c = false) : l.dropWhile p = l := by
  cases l with
  | nil => rfl
  | cons a l => exact List.dropWhile_cons_of_neg (by rw [h a (by simp)]; simp)

/-- Spaces around a text that begins and ends with something else are removed. -/
theorem pyStrip_around (w1 b w2 : List Char) (h1 : ∀ c ∈ w1, isPySpace c = true) (h2 : ∀ c ∈ w2, isPySpace c = true)
    (hb : b ≠ []) (hf : ∀ c ∈ b.head?, isPySpace c = false) (hl : ∀ c ∈ b.getLast?, isPySpace c = false) :
    pyStrip (w1 ++ b ++ w2) = b := by
  unfold pyStrip
  rw [List.append_assoc, dropWhile_all _ _ _ h1, dropWhile_none _ (b ++ w2), List.reverse_append,
    dropWhile_all _ _ _ (fun c hc => h2 c (by simpa using hc)), dropWhile_none, List.reverse_reverse]
  · intro c hc; exact hl c (by simpa using hc)
  · intro c hc
    cases b with
    | nil => exact absurd rfl hb
    | cons a b => exact hf c (by simpa using hc)

theorem spanDigits_append (ds rest : List Char) (h : ∀ c ∈ ds, c.isDigit = true) (hr : ∀ c ∈ rest.head?, c.isDigit = false) :
    spanDigits (ds ++ rest) = (ds, rest) := by
  induction ds with
  | nil =>
    cases rest with
    | nil => rfl
    | cons c cs => simp [spanDigits, hr c (by simp)]
  | cons c ds ih =>
    rw [List.cons_append, spanDigits, if_pos (h c (by simp)), ih fun c hc => h c (List.mem_cons_of_mem _ hc)]

theorem underscoresOk_none (b : Bool) (s : List Char) (h : '_' ∉ s) : underscoresOk b s = true := by
  induction s generalizing b with
  | nil => rfl
  | cons c s ih =>
    have hc : c ≠ '_' := fun e => h (by simp [e])
    rw [underscoresOk.eq_def]
    split
    · rfl
    · rename_i heq; cases heq; exact absurd rfl hc
    · rename_i heq; cases heq; exact ih _ fun h' => h (List.mem_cons_of_mem _ h')

/-- What the parser makes of digits with an optional point. -/
theorem parseUnsigned_plain (ip fp : List Char) (dot : Bool) (hi : ∀ c ∈ ip, c.isDigit = true) (hf : ∀ c ∈ fp, c.isDigit = true)
    (hne : ip ++ fp ≠ []) (hd : dot = false → fp = []) :
    parseUnsigned false (ip ++ (if dot then '.' :: fp else [])) = some (.fin false (Nat.ofDigitChars 10 (ip ++ fp) 0) (-(fp.length : Int))) := by
  have hall : ∀ c ∈ ip ++ (if dot then '.' :: fp else []), c.isDigit = true ∨ c = '.' := by
    intro c hc
    rcases List.mem_append.1 hc with h | h
    · exact .inl (hi c h)
    · split at h
      · rcases List.mem_cons.1 h with h | h
        · exact .inr h
        · exact .inl (hf c h)
      · simp at h
  have hnot : ∀ c, c ∈ ip ++ (if dot then '.' :: fp else []) → ∀ d : Char, d.isDigit = false → d ≠ '.' → c ≠ d := by
    intro c hc d h1 h2 e
    subst e
    rcases hall c hc with h | h
    · rw [h1] at h; cases h
    · exact h2 h
  have hlow : pyLower (ip ++ (if dot then '.' :: fp else [])) = ip ++ (if dot then '.' :: fp else []) := by
    unfold pyLower
    conv => rhs; rw [← List.map_id (ip ++ (if dot then '.' :: fp else []))]
    refine List.map_congr_left fun c hc => ?_
    rcases hall c hc with h | h
    · exact isDigit_lower h
    · subst h; decide
  unfold parseUnsigned
  rw [hlow, if_neg, if_neg, underscoresOk_none, if_pos rfl]
  · have hfil : (ip ++ (if dot then '.' :: fp else [])).filter (· != '_') = ip ++ (if dot then '.' :: fp else []) := by
      rw [List.filter_eq_self]
      intro c hc
      simpa using hnot c hc '_' (by decide) (by decide)
    simp only [hfil]
    cases dot with
    | false =>
      have := hd rfl
      subst this
      simp only [Bool.false_eq_true, if_false, List.append_nil] at hne ⊢
      have hsp := spanDigits_append ip [] hi (by simp)
      rw [List.append_nil] at hsp
      rw [hsp]
      simp [parseTail, parseExp, hne]
    | true =>
      simp only [if_true]
      rw [spanDigits_append ip ('.' :: fp) hi (by simp)]
      have hsp := spanDigits_append fp [] hf (by simp)
      rw [List.append_nil] at hsp
      have hne' : ¬ (ip = [] ∧ fp = []) := by rintro ⟨rfl, rfl⟩; exact hne rfl
      simp [parseTail, hsp, parseExp, hne']
  · intro h; exact hnot '_' h '_' (by decide) (by decide) rfl
  · intro h
    exact hnot 'n' (by rw [h]; decide) 'n' (by decide) (by decide) rfl
  · rintro (h | h) <;> exact hnot 'n' (by rw [h]; decide) 'n' (by decide) (by decide) rfl

theorem roundHalfEven_err (num den : Nat) (hd : 0 < den) :
    2 * (roundHalfEven num den * den) ≤ 2 * num + den ∧ 2 * num ≤ 2 * (roundHalfEven num den * den) + den := by
  unfold roundHalfEven
  have h := Nat.div_add_mod num den
  have hr := Nat.mod_lt num hd
  rw [Nat.mul_comm] at h
  simp only
  have e : (num / den + 1) * den = num / den * den + den := Nat.succ_mul _ _
  generalize hq : num / den * den = q at *
  generalize num % den = r at *
  have k : ∀ t, (t = num / den ∧ 2 * r ≤ den) ∨ (t = num / den + 1 ∧ den ≤ 2 * r) →
      2 * (t * den) ≤ 2 * num + den ∧ 2 * num ≤ 2 * (t * den) + den := by
    rintro t (⟨rfl, h1⟩ | ⟨rfl, h1⟩)
    · rw [hq]; omega
    · rw [e]; omega
  refine k _ ?_
  repeat' split
  all_goals first
    | exact .inl ⟨rfl, by omega⟩
    | exact .inr ⟨rfl, by omega⟩

/-- A double differs from the number it stands for by at most one part in `2 ^ 53`. -/
theorem toDouble_err (num den m : Nat) (e : Int) (hd : 0 < den) (h : toDouble num den = some (m, e)) :
    m * 2 ^ e.toNat * den * 2 ^ 53 ≤ num * 2 ^ (-e).toNat * (2 ^ 53 + 1) ∧
    num * 2 ^ (-e).toNat * (2 ^ 53 - 1) ≤ m * 2 ^ e.toNat * den * 2 ^ 53 := by
  unfold toDouble at h
  by_cases hz : num = 0
  · simp [hz] at h; simp [hz, ← h.1]
  rw [if_neg hz] at h
  simp only at h
  split at h
  · simp only [Option.some.injEq, Prod.mk.injEq] at h
    obtain ⟨hm, he⟩ := h
    have hle := doubleExp_le num den hz
    rw [he] at hm hle
    simp only [scalePair] at hm hle
    have hD : 0 < den * 2 ^ e.toNat := Nat.mul_pos hd (pow2_pos _)
    have := roundHalfEven_err (num * 2 ^ (-e).toNat) _ hD
    rw [hm] at this
    have e1 : m * 2 ^ e.toNat * den = m * (den * 2 ^ e.toNat) := by rw [Nat.mul_assoc, Nat.mul_comm (2 ^ _) den]
    rw [e1]
    generalize m * (den * 2 ^ e.toNat) = x at *
    generalize num * 2 ^ (-e).toNat = y at *
    generalize den * 2 ^ e.toNat = z at *
    omega
  · simp at h

theorem toDouble_overflow (num den : Nat) (hd : 0 < den) (h : toDouble num den = none) : den * 2 ^ 1023 ≤ num := by
  unfold toDouble at h
  by_cases hz : num = 0
  · simp [hz] at h
  rw [if_neg hz] at h
  simp only at h
  split at h
  · simp at h
  · rename_i hlog
    have hle := doubleExp_le num den hz
    generalize doubleExp num den = e at *
    have hD : 0 < den * 2 ^ e.toNat := Nat.mul_pos hd (pow2_pos _)
    have herr := roundHalfEven_err (num * 2 ^ (-e).toNat) _ hD
    simp only [scalePair] at hlog hle
    generalize roundHalfEven (num * 2 ^ (-e).toNat) (den * 2 ^ e.toNat) = m at *
    have hm0 : m ≠ 0 := by
      intro h0
      subst h0
      have h2 := herr.2
      rw [Nat.zero_mul] at h2
      omega
    have h1 : 2 ^ Nat.log2 m ≤ m := Nat.log2_self_le hm0
    have h2 : m * (den * 2 ^ e.toNat) ≤ 2 * (num * 2 ^ (-e).toNat) := by have := herr.1; omega
    have h3 : 2 ^ (1024 + (-e).toNat) ≤ 2 ^ (Nat.log2 m + e.toNat) := Nat.pow_le_pow_right (by decide) (by omega)
    rw [Nat.pow_add, Nat.pow_add] at h3
    have h4 : 2 ^ 1024 * 2 ^ (-e).toNat * den ≤ 2 * (num * 2 ^ (-e).toNat) := by
      refine Nat.le_trans (Nat.mul_le_mul_right den h3) (Nat.le_trans ?_ h2)
      rw [Nat.mul_assoc, Nat.mul_comm (2 ^ e.toNat) den]
      exact Nat.mul_le_mul_right _ h1
    have h5 : 2 * (den * 2 ^ 1023) * 2 ^ (-e).toNat ≤ 2 * num * 2 ^ (-e).toNat := by
      rw [show 2 * (den * 2 ^ 1023) * 2 ^ (-e).toNat = 2 ^ 1024 * 2 ^ (-e).toNat * den by
        rw [show (2 : Nat) ^ 1024 = 2 * 2 ^ 1023 by rw [Nat.pow_succ, Nat.mul_comm], Nat.mul_comm den, ← Nat.mul_assoc, Nat.mul_right_comm],
        Nat.mul_assoc 2 num]
      exact h4
    exact Nat.le_of_mul_le_mul_left (Nat.le_of_mul_le_mul_right h5 (pow2_pos _)) (by decide)

/-- What `int(float(text) * ratio)` is for a number that is not negative: within two roundings of the exact
product and then cut to an integer, unless the product is beyond the doubles. -/
theorem scaledInt_err (digits : Nat) (exp : Int) (ratio : Nat) (hr : 0 < ratio) :
    (∃ r : Nat, scaledInt (.fin false digits exp) ratio = .ok (r : Int) ∧
      r * 10 ^ (-exp).toNat * 2 ^ 106 ≤ digits * 10 ^ exp.toNat * ratio * (2 ^ 53 + 1) ^ 2 ∧
      digits * 10 ^ exp.toNat * ratio * (2 ^ 53 - 1) ^ 2 < (r + 1) * 10 ^ (-exp).toNat * 2 ^ 106) ∨
    (scaledInt (.fin false digits exp) ratio = .error .overflow ∧
      10 ^ (-exp).toNat * 2 ^ 1022 ≤ digits * 10 ^ exp.toNat * ratio) := by
  have hten : 0 < 10 ^ (-exp).toNat := Nat.pow_pos (by decide)
  generalize hx : digits * 10 ^ exp.toNat = x
  generalize hy : 10 ^ (-exp).toNat = y at hten ⊢
  unfold scaledInt
  simp only [literalDouble, mulDouble, hx, hy]
  cases h1 : toDouble x y with
  | none =>
    right
    refine ⟨rfl, ?_⟩
    have := toDouble_overflow x y hten h1
    refine Nat.le_trans ?_ (Nat.le_mul_of_pos_right x hr)
    refine Nat.le_trans ?_ this
    exact Nat.mul_le_mul_left _ (Nat.pow_le_pow_right (by decide) (by decide))
  | some d =>
    obtain ⟨m, e⟩ := d
    obtain ⟨a1, a2⟩ := toDouble_err x y m e hten h1
    simp only [Option.bind_some]
    generalize hM : m * 2 ^ e.toNat = M at *
    have hM' : m * ratio * 2 ^ e.toNat = M * ratio := by rw [← hM, Nat.mul_right_comm]
    rw [hM']
    have hE := pow2_pos (-e).toNat
    generalize (2 : Nat) ^ (-e).toNat = E at *
    cases h2 : toDouble (M * ratio) E with
    | none =>
      right
      refine ⟨rfl, ?_⟩
      have h3 := toDouble_overflow _ _ hE h2
      -- `M ratio ≥ E 2^1023` and `M y 2^53 ≤ x E (2^53 + 1)`
      have h4 : E * 2 ^ 1023 * y ≤ M * ratio * y := Nat.mul_le_mul_right _ h3
      have h5 : M * y ≤ 2 * (x * E) := by omega
      have h6 : M * ratio * y ≤ 2 * (x * E) * ratio := by rw [Nat.mul_right_comm]; exact Nat.mul_le_mul_right _ h5
      have h7 : y * 2 ^ 1022 * (2 * E) ≤ x * ratio * (2 * E) := by
        have := Nat.le_trans h4 h6
        rw [show y * 2 ^ 1022 * (2 * E) = E * 2 ^ 1023 * y by
          rw [show (2 : Nat) ^ 1023 = 2 ^ 1022 * 2 by rw [Nat.pow_succ]]
          generalize (2 : Nat) ^ 1022 = P
          grind, show x * ratio * (2 * E) = 2 * (x * E) * ratio by grind]
        exact this
      exact Nat.le_of_mul_le_mul_right h7 (by omega)
    | some d2 =>
      left
      obtain ⟨m2, e2⟩ := d2
      obtain ⟨b1, b2⟩ := toDouble_err _ _ m2 e2 hE h2
      refine ⟨truncDouble (m2, e2), by simp, ?_⟩
      unfold truncDouble
      simp only
      generalize m2 * 2 ^ e2.toNat = N at *
      have hF := pow2_pos (-e2).toNat
      generalize (2 : Nat) ^ (-e2).toNat = F at *
      have hd := Nat.div_add_mod N F
      have hm := Nat.mod_lt N hF
      generalize N / F = r at *
      have c1 : r * F ≤ N := by rw [Nat.mul_comm]; omega
      have c2 : N < (r + 1) * F := by rw [Nat.succ_mul, Nat.mul_comm r]; omega
      constructor
      · refine Nat.le_of_mul_le_mul_right (c := F * E) ?_ (Nat.mul_pos hF hE)
        calc r * y * 2 ^ 106 * (F * E) = (r * F) * (E * y * 2 ^ 106) := by grind
          _ ≤ N * (E * y * 2 ^ 106) := Nat.mul_le_mul_right _ c1
          _ = (N * E * 2 ^ 53) * (y * 2 ^ 53) := by grind
          _ ≤ (M * ratio * F * (2 ^ 53 + 1)) * (y * 2 ^ 53) := Nat.mul_le_mul_right _ b1
          _ = (M * y * 2 ^ 53) * (ratio * F * (2 ^ 53 + 1)) := by grind
          _ ≤ (x * E * (2 ^ 53 + 1)) * (ratio * F * (2 ^ 53 + 1)) := Nat.mul_le_mul_right _ a1
          _ = x * ratio * (2 ^ 53 + 1) ^ 2 * (F * E) := by grind
      · refine Nat.lt_of_mul_lt_mul_right (a := F * E) ?_
        calc x * ratio * (2 ^ 53 - 1) ^ 2 * (F * E) = (x * E * (2 ^ 53 - 1)) * (ratio * F * (2 ^ 53 - 1)) := by grind
          _ ≤ (M * y * 2 ^ 53) * (ratio * F * (2 ^ 53 - 1)) := Nat.mul_le_mul_right _ a2
          _ = (M * ratio * F * (2 ^ 53 - 1)) * (y * 2 ^ 53) := by grind
          _ ≤ (N * E * 2 ^ 53) * (y * 2 ^ 53) := Nat.mul_le_mul_right _ b2
          _ = N * (E * y * 2 ^ 106) := by grind
          _ < (r + 1) * F * (E * y * 2 ^ 106) := Nat.mul_lt_mul_of_pos_right c2 (Nat.mul_pos (Nat.mul_pos hE hten) (by decide))
          _ = (r + 1) * y * 2 ^ 106 * (F * E) := by grind

end LitData
