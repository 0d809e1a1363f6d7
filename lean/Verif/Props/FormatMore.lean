import Verif.Props.Format

/-! C37, continued: what is accepted as a number. -/

namespace LitData.Props

open LitData

/-- Decimal digits only. -/
def Digits (cs : List Char) : Prop := ∀ c ∈ cs, c.isDigit = true

/-- An exponent as in `1e-3`, or none. -/
def ExponentText (cs : List Char) : Prop :=
  cs = [] ∨ ∃ e sign ds, cs = e :: (sign ++ ds) ∧ (e = 'e' ∨ e = 'E') ∧ (sign = [] ∨ sign = ['-'] ∨ sign = ['+']) ∧ Digits ds ∧ ds ≠ []

/-- A decimal number: a sign, digits with or without a point, at least one, and an exponent. -/
def NumberText (cs : List Char) : Prop :=
  ∃ sign ip point fp ex, cs = sign ++ ip ++ point ++ fp ++ ex ∧ (sign = [] ∨ sign = ['-'] ∨ sign = ['+']) ∧ Digits ip ∧ Digits fp ∧ ip ++ fp ≠ [] ∧
    (point = ['.'] ∨ point = [] ∧ fp = []) ∧ ExponentText ex

theorem pyStrip_idem (u : List Char) : pyStrip (pyStrip u) = pyStrip u := by
  have h0 : ∀ v, pyStrip v = ((v.dropWhile isPySpace).reverse.dropWhile isPySpace).reverse := fun _ => rfl
  have h1 : (pyStrip u).dropWhile isPySpace = pyStrip u := by
    refine dropWhile_none _ _ fun c hc => ?_
    -- the head of the stripped text is the head of `dropWhile`, or there is nothing
    unfold pyStrip at hc
    have hpre : (((u.dropWhile isPySpace).reverse.dropWhile isPySpace).reverse) <+: u.dropWhile isPySpace := by
      rw [← List.reverse_suffix, List.reverse_reverse]; exact List.dropWhile_suffix _
    obtain ⟨r, hr⟩ := hpre
    have hc2 : c ∈ (u.dropWhile isPySpace).head? := by
      rw [← hr]
      cases hq : ((u.dropWhile isPySpace).reverse.dropWhile isPySpace).reverse with
      | nil => rw [hq] at hc; simp at hc
      | cons a l => rw [hq] at hc; simpa using hc
    have := List.head?_dropWhile_not isPySpace u
    rw [Option.mem_def.1 hc2] at this
    exact this
  rw [h0 (pyStrip u), h1]
  unfold pyStrip
  rw [List.reverse_reverse, dropWhile_idem]

theorem spanDigits_spec (cs : List Char) : cs = (spanDigits cs).1 ++ (spanDigits cs).2 ∧ Digits (spanDigits cs).1 := by
  induction cs with
  | nil => exact ⟨rfl, fun c h => by cases h⟩
  | cons c cs ih =>
    unfold spanDigits
    split
    · rename_i hc
      refine ⟨by simp only [List.cons_append]; rw [← ih.1], ?_⟩
      intro d hd
      rcases List.mem_cons.1 hd with rfl | h
      · exact hc
      · exact ih.2 d h
    · exact ⟨rfl, fun c h => by cases h⟩

theorem parseExp_text {cs : List Char} {e : Int} (h : parseExp cs = some e) : ExponentText cs := by
  cases cs with
  | nil => exact .inl rfl
  | cons c cs =>
    right
    unfold parseExp at h
    dsimp only at h
    by_cases hc : c = 'e' ∨ c = 'E'
    · rw [if_pos hc] at h
      have key : ∀ (m : Bool × List Char) (sign : List Char), (sign = [] ∨ sign = ['-'] ∨ sign = ['+']) → cs = sign ++ m.2 →
          (if (spanDigits m.2).1 = [] ∨ (spanDigits m.2).2 ≠ [] then none
            else some (if m.1 then -(Nat.ofDigitChars 10 (spanDigits m.2).1 0 : Int) else (Nat.ofDigitChars 10 (spanDigits m.2).1 0 : Int))) = some e →
          ∃ e sign ds, c :: cs = e :: (sign ++ ds) ∧ (e = 'e' ∨ e = 'E') ∧ (sign = [] ∨ sign = ['-'] ∨ sign = ['+']) ∧ Digits ds ∧ ds ≠ [] := by
        rintro ⟨neg, r⟩ sign hs hcs h
        simp only at hcs h
        split at h
        · cases h
        · rename_i hn
          obtain ⟨h1, h2⟩ := spanDigits_spec r
          have hrest : (spanDigits r).2 = [] := by
            cases hh : (spanDigits r).2 with
            | nil => rfl
            | cons a b => exact absurd (.inr (by rw [hh]; simp)) hn
          refine ⟨c, sign, (spanDigits r).1, ?_, hc, hs, h2, fun h => hn (.inl h)⟩
          rw [hcs]
          rw [hrest, List.append_nil] at h1
          rw [← h1]
      have hsign : ∃ sign : List Char, (sign = [] ∨ sign = ['-'] ∨ sign = ['+']) ∧
          cs = sign ++ (match (generalizing := false) cs with | '-' :: r => (true, r) | '+' :: r => (false, r) | r => (false, r)).2 := by
        split
        · exact ⟨['-'], by simp, rfl⟩
        · exact ⟨['+'], by simp, rfl⟩
        · exact ⟨[], by simp, rfl⟩
      obtain ⟨sign, hs, hcs⟩ := hsign
      exact key _ sign hs hcs h
    · rw [if_neg hc] at h; cases h

theorem parseTail_text {neg : Bool} {ip cs : List Char} {l : FloatLit} (h : parseTail neg ip cs = some l) :
    ∃ point fp ex, cs = point ++ fp ++ ex ∧ Digits fp ∧ ip ++ fp ≠ [] ∧ (point = ['.'] ∨ point = [] ∧ fp = []) ∧ ExponentText ex := by
  unfold parseTail at h
  split at h
  · rename_i rest
    obtain ⟨h1, h2⟩ := spanDigits_spec rest
    simp only at h
    split at h
    · cases h
    · rename_i hn
      obtain ⟨e, he, _⟩ := Option.map_eq_some_iff.1 h
      refine ⟨['.'], (spanDigits rest).1, (spanDigits rest).2, ?_, h2, ?_, .inl rfl, parseExp_text he⟩
      · simp only [List.cons_append, List.nil_append]; rw [← h1]
      · intro h; exact hn (by simpa using h)
  · split at h
    · cases h
    · rename_i hn
      obtain ⟨e, he, _⟩ := Option.map_eq_some_iff.1 h
      exact ⟨[], [], cs, rfl, (fun c h => by cases h), by simpa using hn, .inr ⟨rfl, rfl⟩, parseExp_text he⟩

theorem underscoresOk_spec (prev : Bool) (s : List Char) (h : underscoresOk prev s = true) (p q : List Char) (e : s = p ++ '_' :: q) :
    (p = [] ∧ prev = true ∨ ∃ p' a, p = p' ++ [a] ∧ a.isDigit = true) ∧ ∃ b q', q = b :: q' ∧ b.isDigit = true := by
  induction s generalizing prev p with
  | nil => simp at e
  | cons c s ih =>
    by_cases hc : c = '_'
    · subst hc
      have hs : ∃ b s', s = b :: s' ∧ prev = true ∧ b.isDigit = true ∧ underscoresOk false s = true := by
        cases s with
        | nil => simp [underscoresOk] at h
        | cons b s' =>
          rw [underscoresOk.eq_2, Bool.and_eq_true, Bool.and_eq_true] at h
          exact ⟨b, s', rfl, h.1.1, h.1.2, h.2⟩
      obtain ⟨b0, s0, hs0, h1, h2, h3⟩ := hs
      cases p with
      | nil =>
        simp only [List.nil_append, List.cons.injEq, true_and] at e
        subst e
        exact ⟨.inl ⟨rfl, h1⟩, b0, s0, hs0, h2⟩
      | cons a p =>
        simp only [List.cons_append, List.cons.injEq] at e
        obtain ⟨rfl, rfl⟩ := e
        obtain ⟨i1, i2⟩ := ih false h3 p rfl
        refine ⟨.inr ?_, i2⟩
        rcases i1 with ⟨_, h⟩ | ⟨p', a, rfl, ha⟩
        · cases h
        · exact ⟨'_' :: p', a, rfl, ha⟩
    · have h' : underscoresOk c.isDigit s = true := by
        unfold underscoresOk at h
        split at h
        · rename_i hh; cases hh
        · rename_i hh; simp only [List.cons.injEq] at hh; exact absurd hh.1 hc
        · rename_i hh; simp only [List.cons.injEq] at hh; obtain ⟨rfl, rfl⟩ := hh; exact h
      cases p with
      | nil =>
        simp only [List.nil_append, List.cons.injEq] at e
        exact absurd e.1 hc
      | cons a p =>
        simp only [List.cons_append, List.cons.injEq] at e
        obtain ⟨rfl, rfl⟩ := e
        obtain ⟨i1, i2⟩ := ih _ h' p rfl
        refine ⟨.inr ?_, i2⟩
        rcases i1 with ⟨rfl, hd⟩ | ⟨p', a, rfl, ha⟩
        · exact ⟨[], _, rfl, hd⟩
        · exact ⟨c :: p', a, rfl, ha⟩

/-- Each underscore is between two digits. -/
def UnderscoresBetween (s : List Char) : Prop :=
  ∀ p q, s = p ++ '_' :: q → ∃ p' a b q', p = p' ++ [a] ∧ q = b :: q' ∧ a.isDigit = true ∧ b.isDigit = true

theorem parseFloat_underscores {cs : List Char} {b : Bool} {d : Nat} {e : Int} (h : parseFloat cs = some (.fin b d e)) : UnderscoresBetween (pyStrip cs) := by
  have key : ∀ neg u, parseUnsigned neg u = some (.fin b d e) → underscoresOk false u = true := by
    intro neg u h
    unfold parseUnsigned at h
    split at h
    · simp at h
    split at h
    · simp at h
    split at h
    · assumption
    · cases h
  have hu : ∀ u, underscoresOk false u = true → UnderscoresBetween u := by
    intro u h p q e
    obtain ⟨h1, b', q', h2, h3⟩ := underscoresOk_spec false u h p q e
    rcases h1 with ⟨_, h⟩ | ⟨p', a, h4, h5⟩
    · cases h
    · exact ⟨p', a, b', q', h4, h2, h5, h3⟩
  have hsign : ∀ c u, c ≠ '_' → UnderscoresBetween u → UnderscoresBetween (c :: u) := by
    intro c u hc h p q e
    cases p with
    | nil => simp only [List.nil_append, List.cons.injEq] at e; exact absurd e.1 hc
    | cons a p =>
      simp only [List.cons_append, List.cons.injEq] at e
      obtain ⟨p', x, y, q', h1, h2, h3, h4⟩ := h p q e.2
      exact ⟨a :: p', x, y, q', by rw [h1]; rfl, h2, h3, h4⟩
  unfold parseFloat at h
  split at h
  · rename_i r hr
    rw [hr]; exact hsign _ _ (by decide) (hu _ (key _ _ h))
  · rename_i r hr
    rw [hr]; exact hsign _ _ (by decide) (hu _ (key _ _ h))
  · exact hu _ (key _ _ h)

theorem parseUnsigned_text {neg : Bool} {cs : List Char} {b : Bool} {d : Nat} {e : Int} (h : parseUnsigned neg cs = some (.fin b d e)) (sign : List Char)
    (hs : sign = [] ∨ sign = ['-'] ∨ sign = ['+']) : NumberText (sign ++ cs.filter (· != '_')) := by
  unfold parseUnsigned at h
  split at h
  · simp at h
  split at h
  · simp at h
  split at h
  · simp only at h
    obtain ⟨h1, h2⟩ := spanDigits_spec (cs.filter (· != '_'))
    obtain ⟨point, fp, ex, g1, g2, g3, g4, g5⟩ := parseTail_text h
    refine ⟨sign, _, point, fp, ex, ?_, hs, h2, g2, g3, g4, g5⟩
    conv => lhs; rw [h1, g1]
    simp
  · cases h

theorem parseFloat_text {cs : List Char} {b : Bool} {d : Nat} {e : Int} (h : parseFloat cs = some (.fin b d e)) : NumberText ((pyStrip cs).filter (· != '_')) := by
  unfold parseFloat at h
  split at h
  · rename_i r hr
    have := parseUnsigned_text h ['-'] (.inr (.inl rfl))
    rw [hr]; simpa using this
  · rename_i r hr
    have := parseUnsigned_text h ['+'] (.inr (.inr rfl))
    rw [hr]; simpa using this
  · have := parseUnsigned_text h [] (.inl rfl)
    simpa using this

/-- **C37, what is refused.** A text is turned into a size only when, lower-cased and without the white space around it, it is one of
the four units after a decimal number (in which underscores may stand between two digits). -/
theorem c37_only_numbers (s : String) (v : Int) (h : convertBytes s = .ok v) :
    ∃ body name k, (name, k) ∈ unitPower ∧ pyStrip (pyLower s.toList) = body ++ name.toList ∧ NumberText ((pyStrip body).filter (· != '_')) ∧ UnderscoresBetween (pyStrip body) := by
  have hlow : ∀ u : List Char, pyLower (pyStrip (pyLower u)) = pyStrip (pyLower u) := by
    intro u
    unfold pyStrip
    conv => rhs; rw [← List.map_id (List.reverse _)]
    refine List.map_congr_left fun c hc => ?_
    have h1 : c ∈ pyLower u :=
      (List.dropWhile_sublist isPySpace).mem (List.mem_reverse.1 ((List.dropWhile_sublist isPySpace).mem (List.mem_reverse.1 hc)))
    obtain ⟨d, _, rfl⟩ := List.mem_map.1 h1
    exact lower_idem d
  have hstr : ∀ u : List Char, pyStrip (pyStrip u) = pyStrip u := pyStrip_idem
  have key : ∀ (units : List (String × Nat)) (cs : List Char), convertLoop units cs = .ok v →
      ∃ body name ratio, (name, ratio) ∈ units ∧ pyStrip (pyLower cs) = body ++ name.toList ∧ NumberText ((pyStrip body).filter (· != '_')) ∧ UnderscoresBetween (pyStrip body) := by
    intro units
    induction units with
    | nil => intro cs h; cases h
    | cons u units ih =>
      obtain ⟨suffix, ratio⟩ := u
      intro cs h
      unfold convertLoop at h
      simp only at h
      split at h
      · rename_i hsuf
        rw [hlow, List.isSuffixOf_iff_suffix] at hsuf
        obtain ⟨body, hb⟩ := hsuf
        refine ⟨body, suffix, ratio, by simp, hb.symm, ?_⟩
        rw [← hb, List.length_append, Nat.add_sub_cancel, List.take_left] at h
        split at h
        · cases h
        · rename_i lit hl
          unfold scaledInt at h
          cases lit with
          | inf _ => cases h
          | nan => cases h
          | fin neg d e => exact ⟨parseFloat_text hl, parseFloat_underscores hl⟩
      · obtain ⟨body, name, r, h1, h2, h3⟩ := ih _ h
        rw [hlow, hstr] at h2
        exact ⟨body, name, r, by simp [h1], h2, h3⟩
  obtain ⟨body, name, ratio, h1, h2, h3⟩ := key _ _ h
  have hm : ∃ k, (name, k) ∈ unitPower := by
    simp only [formatToRatio, List.mem_cons, Prod.mk.injEq, List.not_mem_nil, or_false] at h1
    simp only [unitPower, List.mem_cons, Prod.mk.injEq, List.not_mem_nil, or_false]
    rcases h1 with ⟨rfl, _⟩ | ⟨rfl, _⟩ | ⟨rfl, _⟩ | ⟨rfl, _⟩
    · exact ⟨1, by simp⟩
    · exact ⟨2, by simp⟩
    · exact ⟨3, by simp⟩
    · exact ⟨4, by simp⟩
  obtain ⟨k, hk⟩ := hm
  exact ⟨body, name, k, hk, h2, h3⟩

/-- A text of `c37_only_numbers`. -/
example : convertBytes " 1_0.5E+2 kB " = .ok 1050000 := by decide +kernel

/-- Rounding goes to the nearest integer, and between two to the even one, as for doubles. -/
theorem c37_ties_to_even (num den : Nat) (hd : 0 < den) (q : Nat) (hq : 2 * num = 2 * (q * den) + den) : roundHalfEven num den % 2 = 0 ∧
    (roundHalfEven num den = q ∨ roundHalfEven num den = q + 1) := by
  have h1 : num / den = q := by
    rw [Nat.div_eq_iff hd]
    constructor <;> omega
  have h2 : 2 * (num % den) = den := by
    have := Nat.div_add_mod num den
    rw [h1, Nat.mul_comm] at this
    omega
  unfold roundHalfEven
  simp only [h1, h2]
  rw [if_neg (by omega), if_neg (by omega)]
  split <;> omega

/-- Two and a half is rounded to two, three and a half to four. -/
example : roundHalfEven 5 2 = 2 ∧ roundHalfEven 7 2 = 4 := by decide

end LitData.Props
