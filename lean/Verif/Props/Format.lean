import Verif.Lemmas.Format

/-! Property C37: byte sizes given as text. -/

namespace LitData.Props
open LitData

/-- The units of the documentation: a power of 1000 for each. -/
def unitPower : List (String × Nat) := [("kb", 1), ("mb", 2), ("gb", 3), ("tb", 4)]

/-- A size as a user may write it: a number (digits `ip`, perhaps a point and digits `fp`), a unit in any mixture of
capitals and small letters, white space around and between. -/
structure SizeText where
  w1 : List Char
  ip : List Char
  dot : Bool
  fp : List Char
  w2 : List Char
  unit : List Char
  w3 : List Char

/-- The characters. -/
def SizeText.chars (t : SizeText) : List Char :=
  t.w1 ++ (t.ip ++ (if t.dot then '.' :: t.fp else [])) ++ t.w2 ++ t.unit ++ t.w3

/-- It is such a text, with the unit `name`. -/
structure SizeText.Ok (t : SizeText) (name : String) : Prop where
  w1 : ∀ c ∈ t.w1, c = ' ' ∨ c = '\t' ∨ c = '\n'
  w2 : ∀ c ∈ t.w2, c = ' ' ∨ c = '\t' ∨ c = '\n'
  w3 : ∀ c ∈ t.w3, c = ' ' ∨ c = '\t' ∨ c = '\n'
  ip : ∀ c ∈ t.ip, c.isDigit = true
  fp : ∀ c ∈ t.fp, c.isDigit = true
  some_digit : t.ip ++ t.fp ≠ []
  nodot : t.dot = false → t.fp = []
  unit : t.unit.map Char.toLower = name.toList

/-- The number in front of the unit, without its point. -/
def SizeText.digits (t : SizeText) : Nat := Nat.ofDigitChars 10 (t.ip ++ t.fp) 0

theorem isSuffixOf_append_iff {a b c : List Char} (hl : b.length = c.length) : b.isSuffixOf (a ++ c) = true ↔ b = c := by
  rw [List.isSuffixOf_iff_suffix]
  constructor
  · rintro ⟨d, h⟩
    exact (List.append_inj_right' h hl)
  · rintro rfl; exact ⟨a, rfl⟩

theorem convert_text (t : SizeText) (name : String) (k : Nat) (hk : (name, k) ∈ unitPower) (h : t.Ok name) :
    convertBytes (String.ofList t.chars) = scaledInt (.fin false t.digits (-(t.fp.length : Int))) (1000 ^ k) := by
  have hsp : ∀ c, (c = ' ' ∨ c = '\t' ∨ c = '\n') → isPySpace c = true := by rintro c (rfl | rfl | rfl) <;> decide
  -- the number
  generalize hn : t.ip ++ (if t.dot then '.' :: t.fp else []) = num
  have hnum : ∀ c ∈ num, isPySpace c = false ∧ c.toLower = c ∧ c ≠ '-' ∧ c ≠ '+' := by
    have hdig : ∀ c : Char, c.isDigit = true → isPySpace c = false ∧ c.toLower = c ∧ c ≠ '-' ∧ c ≠ '+' := by
      intro c hc
      refine ⟨isDigit_not_space hc, isDigit_lower hc, ?_, ?_⟩ <;> (rintro rfl; revert hc; decide)
    intro c hc
    rw [← hn] at hc
    rcases List.mem_append.1 hc with h1 | h1
    · exact hdig c (h.ip c h1)
    · split at h1
      · rcases List.mem_cons.1 h1 with h1 | h1
        · subst h1; decide
        · exact hdig c (h.fp c h1)
      · simp at h1
  have hne : num ≠ [] := by
    rw [← hn]
    intro e
    have e1 := List.append_eq_nil_iff.1 e
    have := h.some_digit
    cases hd : t.dot with
    | true => simp [hd] at e1
    | false => simp [h.nodot hd, e1.1] at this
  have hparse : parseFloat (num ++ t.w2) = some (.fin false t.digits (-(t.fp.length : Int))) := by
    unfold parseFloat
    have := pyStrip_around [] num t.w2 (by simp) (fun c hc => hsp c (h.w2 c hc)) hne
      (fun c hc => (hnum c (List.mem_of_mem_head? hc)).1) (fun c hc => (hnum c (List.mem_of_mem_getLast? hc)).1)
    rw [List.nil_append] at this
    rw [this]
    split
    · exact absurd rfl (hnum '-' (by simp)).2.2.1
    · exact absurd rfl (hnum '+' (by simp)).2.2.2
    · rw [← hn]
      exact parseUnsigned_plain t.ip t.fp t.dot h.ip h.fp h.some_digit h.nodot
  -- the text after `lower` and `strip`
  have hlow : pyLower t.chars = t.w1 ++ (num ++ t.w2 ++ name.toList) ++ t.w3 := by
    have hid : ∀ l : List Char, (∀ c ∈ l, c.toLower = c) → l.map Char.toLower = l := by
      intro l hl
      conv => rhs; rw [← List.map_id l]
      exact List.map_congr_left hl
    unfold pyLower SizeText.chars
    rw [hn]
    simp only [List.map_append, h.unit]
    rw [hid _ fun c hc => space_lower (hsp c (h.w1 c hc)), hid _ fun c hc => (hnum c hc).2.1, hid _ fun c hc => space_lower (hsp c (h.w2 c hc)),
      hid _ fun c hc => space_lower (hsp c (h.w3 c hc))]
    simp
  have hnm : name.toList.length = 2 ∧ name.toList ≠ [] ∧ (∀ c ∈ name.toList.getLast?, isPySpace c = false) := by
    simp only [unitPower, List.mem_cons, Prod.mk.injEq, List.not_mem_nil, or_false] at hk
    rcases hk with ⟨rfl, _⟩ | ⟨rfl, _⟩ | ⟨rfl, _⟩ | ⟨rfl, _⟩ <;> decide
  have hlast : ∀ c ∈ (num ++ t.w2 ++ name.toList).getLast?, c ∈ name.toList.getLast? := by
    intro c hc
    rw [List.getLast?_append] at hc
    cases hq : name.toList.getLast? with
    | none => exact absurd (List.getLast?_eq_none_iff.1 hq) hnm.2.1
    | some d => rw [hq] at hc; simpa using hc
  have hstrip : pyStrip (pyLower t.chars) = num ++ t.w2 ++ name.toList := by
    rw [hlow]
    refine pyStrip_around _ _ _ (fun c hc => hsp c (h.w1 c hc)) (fun c hc => hsp c (h.w3 c hc)) (by simp [hne]) ?_ ?_
    · intro c hc
      refine (hnum c ?_).1
      cases num with
      | nil => exact absurd rfl hne
      | cons a l => simp at hc; simp [hc]
    · intro c hc
      exact hnm.2.2 c (hlast c hc)
  have hlow2 : pyLower (num ++ t.w2 ++ name.toList) = num ++ t.w2 ++ name.toList := by
    rw [← hstrip]
    unfold pyStrip
    have hmem : ∀ c ∈ (((pyLower t.chars).dropWhile isPySpace).reverse.dropWhile isPySpace).reverse, c.toLower = c := by
      intro c hc
      have h1 : c ∈ pyLower t.chars :=
        (List.dropWhile_sublist isPySpace).mem (List.mem_reverse.1 ((List.dropWhile_sublist isPySpace).mem (List.mem_reverse.1 hc)))
      obtain ⟨d, _, rfl⟩ := List.mem_map.1 h1
      exact lower_idem d
    conv => rhs; rw [← List.map_id (List.reverse _)]
    exact List.map_congr_left hmem
  have hstrip2 : pyStrip (pyLower (num ++ t.w2 ++ name.toList)) = num ++ t.w2 ++ name.toList := by
    rw [hlow2]
    have := pyStrip_around [] (num ++ t.w2 ++ name.toList) [] (by simp) (by simp) (by simp [hne]) (by
      intro c hc
      refine (hnum c ?_).1
      cases num with
      | nil => exact absurd rfl hne
      | cons a l => simp at hc; simp [hc]) (by
      intro c hc
      exact hnm.2.2 c (hlast c hc))
    simpa using this
  have hstrip3 : pyStrip (num ++ t.w2 ++ name.toList) = num ++ t.w2 ++ name.toList := by
    rw [hlow2] at hstrip2; exact hstrip2
  have htake : (num ++ t.w2 ++ name.toList).take ((num ++ t.w2 ++ name.toList).length - 2) = num ++ t.w2 := by
    rw [List.length_append, hnm.1, Nat.add_sub_cancel]; exact List.take_left' rfl
  -- one turn of the loop, on the stripped text
  have hmatch : ∀ rest, convertLoop ((name, 1000 ^ k) :: rest) (num ++ t.w2 ++ name.toList) =
      scaledInt (.fin false t.digits (-(t.fp.length : Int))) (1000 ^ k) := by
    intro rest
    rw [convertLoop]
    simp only [hlow2, hstrip3]
    rw [if_pos ((isSuffixOf_append_iff rfl).2 rfl), hnm.1, htake, hparse]
  have hskip : ∀ (s : String) (r : Nat) rest, s.toList.length = 2 → s.toList ≠ name.toList →
      convertLoop ((s, r) :: rest) (num ++ t.w2 ++ name.toList) = convertLoop rest (num ++ t.w2 ++ name.toList) := by
    intro s r rest h1 h2
    rw [convertLoop]
    simp only [hlow2, hstrip3]
    rw [if_neg (by rw [isSuffixOf_append_iff (by rw [h1, hnm.1])]; exact h2)]
  have hfirst : ∀ u rest, convertLoop (u :: rest) t.chars = convertLoop (u :: rest) (num ++ t.w2 ++ name.toList) := by
    rintro ⟨s, r⟩ rest
    rw [convertLoop, convertLoop]
    simp only [hstrip2, hstrip]
  unfold convertBytes
  rw [String.toList_ofList]
  unfold formatToRatio
  rw [hfirst]
  simp only [unitPower, List.mem_cons, Prod.mk.injEq, List.not_mem_nil, or_false] at hk
  rcases hk with ⟨rfl, rfl⟩ | ⟨rfl, rfl⟩ | ⟨rfl, rfl⟩ | ⟨rfl, rfl⟩
  · exact hmatch _
  · rw [hskip _ _ _ (by decide) (by decide)]; exact hmatch _
  · rw [hskip _ _ _ (by decide) (by decide), hskip _ _ _ (by decide) (by decide)]; exact hmatch _
  · rw [hskip _ _ _ (by decide) (by decide), hskip _ _ _ (by decide) (by decide), hskip _ _ _ (by decide) (by decide)]; exact hmatch _

/-- **C37, numbers that are doubles.** A size whose number is `a / 2 ^ j`, with the product below `2 ^ 53`, is the number
times the unit, cut to an integer: whatever the letters' case and the white space. -/
theorem c37_exact (t : SizeText) (name : String) (k : Nat) (hk : (name, k) ∈ unitPower) (h : t.Ok name) (a j : Nat)
    (hv : t.digits * 2 ^ j = a * 10 ^ t.fp.length) (ha : a * 1000 ^ k < 2 ^ 53) :
    convertBytes (String.ofList t.chars) = .ok ((t.digits * 1000 ^ k / 10 ^ t.fp.length : Nat) : Int) := by
  rw [convert_text t name k hk h]
  have e1 : (-(-(t.fp.length : Int))).toNat = t.fp.length := by omega
  have e2 : (-(t.fp.length : Int)).toNat = 0 := by omega
  rw [scaledInt_exact false t.digits _ (1000 ^ k) a j (Nat.pow_pos (by decide)) (by rw [e1, e2]; simpa using hv) ha]
  simp only [Bool.false_eq_true, if_false]
  congr 2
  have hten : 0 < 10 ^ t.fp.length := Nat.pow_pos (by decide)
  rw [← Nat.mul_div_mul_right (a * 1000 ^ k) _ hten, ← Nat.mul_div_mul_right (t.digits * 1000 ^ k) _ (pow2_pos j),
    Nat.mul_right_comm t.digits, hv, Nat.mul_right_comm a, Nat.mul_comm (10 ^ _) (2 ^ j)]

/-- **C37, whole numbers.** `N` and a unit, with the product below `2 ^ 53`, is the product. -/
theorem c37_integer (N : Nat) (w1 w2 w3 unit : List Char) (name : String) (k : Nat) (hk : (name, k) ∈ unitPower)
    (hw : ∀ c ∈ w1 ++ w2 ++ w3, c = ' ' ∨ c = '\t' ∨ c = '\n') (hu : unit.map Char.toLower = name.toList) (hN : N * 1000 ^ k < 2 ^ 53) :
    convertBytes (String.ofList (w1 ++ Nat.toDigits 10 N ++ w2 ++ unit ++ w3)) = .ok ((N * 1000 ^ k : Nat) : Int) := by
  have hok : (SizeText.mk w1 (Nat.toDigits 10 N) false [] w2 unit w3).Ok name := by
    refine ⟨fun c hc => hw c (by simp [hc]), fun c hc => hw c (by simp [hc]), fun c hc => hw c (by simp [hc]), ?_, by simp, by simp [Nat.toDigits_ne_nil], by simp, hu⟩
    intro c hc
    exact Nat.isDigit_of_mem_toDigits (by decide) (by decide) hc
  have hd : (SizeText.mk w1 (Nat.toDigits 10 N) false [] w2 unit w3).digits = N := by
    simp [SizeText.digits, Nat.ofDigitChars_ten_toDigits]
  have := c37_exact _ name k hk hok N 0 (by rw [hd]; simp) hN
  rw [hd] at this
  simpa [SizeText.chars] using this

/-- **C37, any number.** The result is the exact product changed by two roundings to 53 bits and cut to an integer.
Only a product of at least `2 ^ 1022` is refused, with `OverflowError`. -/
theorem c37_rounded (t : SizeText) (name : String) (k : Nat) (hk : (name, k) ∈ unitPower) (h : t.Ok name) :
    (∃ r : Nat, convertBytes (String.ofList t.chars) = .ok (r : Int) ∧
      r * 10 ^ t.fp.length * 2 ^ 106 ≤ t.digits * 1000 ^ k * (2 ^ 53 + 1) ^ 2 ∧
      t.digits * 1000 ^ k * (2 ^ 53 - 1) ^ 2 < (r + 1) * 10 ^ t.fp.length * 2 ^ 106) ∨
    (convertBytes (String.ofList t.chars) = .error .overflow ∧ 10 ^ t.fp.length * 2 ^ 1022 ≤ t.digits * 1000 ^ k) := by
  rw [convert_text t name k hk h]
  have e1 : (-(-(t.fp.length : Int))).toNat = t.fp.length := by omega
  have e2 : (-(t.fp.length : Int)).toNat = 0 := by omega
  have := scaledInt_err t.digits (-(t.fp.length : Int)) (1000 ^ k) (Nat.pow_pos (by decide))
  rw [e1, e2, Nat.pow_zero, Nat.mul_one] at this
  exact this

/-- **C37, unknown units.** A text that, lower-cased and without the white space around it, ends in none of the four
units raises `ValueError`. -/
theorem c37_unknown_suffix (s : String) (h : ∀ name k, (name, k) ∈ unitPower → ¬ name.toList <:+ pyStrip (pyLower s.toList)) :
    convertBytes s = .error .valueError := by
  have hlow : ∀ u : List Char, pyLower (pyStrip (pyLower u)) = pyStrip (pyLower u) := by
    intro u
    unfold pyStrip
    conv => rhs; rw [← List.map_id (List.reverse _)]
    refine List.map_congr_left fun c hc => ?_
    have h1 : c ∈ pyLower u :=
      (List.dropWhile_sublist isPySpace).mem (List.mem_reverse.1 ((List.dropWhile_sublist isPySpace).mem (List.mem_reverse.1 hc)))
    obtain ⟨d, _, rfl⟩ := List.mem_map.1 h1
    exact lower_idem d
  have hstr : ∀ u : List Char, pyStrip (pyStrip u) = pyStrip u := by
    intro u
    have h0 : ∀ v, pyStrip v = ((v.dropWhile isPySpace).reverse.dropWhile isPySpace).reverse := fun _ => rfl
    have h1 : (pyStrip u).dropWhile isPySpace = pyStrip u := by
      refine dropWhile_none _ _ fun c hc => ?_
      -- the head of the stripped text is the head of `dropWhile`, or there is nothing
      unfold pyStrip at hc
      have hpre : (((u.dropWhile isPySpace).reverse.dropWhile isPySpace).reverse) <+: u.dropWhile isPySpace := by
        rw [← List.reverse_suffix, List.reverse_reverse]; exact List.dropWhile_suffix _
      obtain ⟨r, hr⟩ := hpre
      have hc2 : c ∈ (u.dropWhile isPySpace).head? := by
        rw [← hr]
        cases hq : ((u.dropWhile isPySpace).reverse.dropWhile isPySpace).reverse with
        | nil => rw [hq] at hc; simp at hc
        | cons a l => rw [hq] at hc; simpa using hc
      have := List.head?_dropWhile_not isPySpace u
      rw [Option.mem_def.1 hc2] at this
      exact this
    rw [h0 (pyStrip u), h1]
    unfold pyStrip
    rw [List.reverse_reverse, dropWhile_idem]
  have key : ∀ (units : List (String × Nat)) (u : List Char), (∀ e ∈ units, ¬ e.1.toList <:+ pyStrip (pyLower u)) →
      convertLoop units u = .error .valueError := by
    intro units
    induction units with
    | nil => intro u _; rfl
    | cons e units ih =>
      intro u hu
      obtain ⟨n, r⟩ := e
      rw [convertLoop]
      rw [if_neg]
      · exact ih _ fun e he => by rw [hlow, hstr]; exact hu e (List.mem_cons_of_mem _ he)
      · rw [List.isSuffixOf_iff_suffix, hlow]
        exact hu (n, r) (by simp)
  refine key _ _ fun e he => ?_
  obtain ⟨n, r⟩ := e
  simp only [formatToRatio, List.mem_cons, Prod.mk.injEq, List.not_mem_nil, or_false] at he
  rcases he with ⟨rfl, _⟩ | ⟨rfl, _⟩ | ⟨rfl, _⟩ | ⟨rfl, _⟩
  · exact h "kb" 1 (by decide)
  · exact h "mb" 2 (by decide)
  · exact h "gb" 3 (by decide)
  · exact h "tb" 4 (by decide)

/-- **C37 fails for binary units.** `2 GiB` raises `ValueError`, and so do plain numbers and bytes, although the message
of the code names `b` among its units. -/
theorem c37_gib_refused : convertBytes "2 GiB" = .error .valueError ∧ convertBytes "100b" = .error .valueError ∧
    convertBytes "100" = .error .valueError := by decide +kernel

/-- **C37 fails for some decimal fractions.** The product of doubles falls below the exact product and is cut. -/
theorem c37_truncates : convertBytes "1.001kb" = .ok 1000 ∧ convertBytes "4.35tb" = .ok 4349999999999 := by decide +kernel

/-- **C37.** Negative sizes are accepted; infinite ones raise `OverflowError`. -/
theorem c37_odd_numbers : convertBytes "-1gb" = .ok (-1000000000) ∧ convertBytes "infgb" = .error .overflow ∧
    convertBytes "1e400 gb" = .error .overflow ∧ convertBytes "nan kb" = .error .valueError := by decide +kernel

/-- The hypotheses of `c37_exact` and `c37_rounded` hold for ` 2.5 Gb`. -/
example : (SizeText.mk " ".toList "2".toList true "5".toList " ".toList "Gb".toList []).Ok "gb" ∧ ("gb", 3) ∈ unitPower ∧
    25 * 2 ^ 1 = 5 * 10 ^ 1 ∧ 5 * 1000 ^ 3 < 2 ^ 53 ∧ convertBytes " 2.5 Gb" = .ok 2500000000 :=
  ⟨⟨by decide, by decide, by decide, by decide, by decide, by decide, by decide, by decide⟩, by decide, by decide, by decide, by decide +kernel⟩

/-- The hypothesis of `c37_unknown_suffix` holds for `64 MiB`. -/
example : ∀ name k, (name, k) ∈ unitPower → ¬ name.toList <:+ pyStrip (pyLower "64 MiB".toList) := by
  intro name k h
  simp only [unitPower, List.mem_cons, Prod.mk.injEq, List.not_mem_nil, or_false] at h
  rcases h with ⟨rfl, _⟩ | ⟨rfl, _⟩ | ⟨rfl, _⟩ | ⟨rfl, _⟩ <;> decide

end LitData.Props
