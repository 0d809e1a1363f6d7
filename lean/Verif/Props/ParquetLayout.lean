import Verif.Props.Parquet

/-! Property C33: exactly which parquet files low-memory mode reads rightly. -/

namespace LitData.Props
open LitData

/-- Row groups of `n` rows, then perhaps a shorter one, and after it no more rows. -/
def LowLayout {R : Type} (n : Nat) : ParquetFile R → Prop
  | [] => True
  | g :: gs => (g.length = n ∧ LowLayout n gs) ∨ (g.length < n ∧ gs.flatten = [])

theorem layout_iff {R : Type} (n : Nat) (hn : 0 < n) (f : ParquetFile R) (hd : f.flatten.Nodup) :
    (∀ (i : Nat) (r : R), f.flatten[i]? = some r → (f[i / n]?.bind fun g => g[i % n]?) = some r) ↔ LowLayout n f := by
  induction f with
  | nil => simp [LowLayout]
  | cons g gs ih =>
    rw [List.flatten_cons] at hd ⊢
    have hd2 : gs.flatten.Nodup := (List.nodup_append.1 hd).2.1
    have hne : ∀ r, r ∈ g → r ∈ gs.flatten → False := fun r h1 h2 => (List.nodup_append.1 hd).2.2 r h1 r h2 rfl
    constructor
    · intro h
      rcases Nat.lt_trichotomy g.length n with hlt | heq | hgt
      · right
        refine ⟨hlt, ?_⟩
        cases hg : gs.flatten with
        | nil => rfl
        | cons r rs =>
          have := h g.length r (by rw [hg, List.getElem?_append_right (Nat.le_refl _)]; simp)
          rw [Nat.div_eq_of_lt hlt, Nat.mod_eq_of_lt hlt] at this
          simp at this
      · left
        refine ⟨heq, (ih hd2).1 fun i r hr => ?_⟩
        have := h (i + n) r (by rw [List.getElem?_append_right (by omega)]; rw [heq, Nat.add_sub_cancel]; exact hr)
        rw [Nat.add_div_right i hn, Nat.add_mod_right] at this
        simpa using this
      · exfalso
        have hr : g[n]? = some g[n] := List.getElem?_eq_getElem hgt
        have := h n g[n] (by rw [List.getElem?_append_left hgt, hr])
        rw [Nat.div_self hn, Nat.mod_self] at this
        cases hgs : gs[0]? with
        | none =>
          rw [List.getElem?_cons_succ, hgs] at this
          cases this
        | some g1 =>
          rw [List.getElem?_cons_succ, hgs] at this
          exact hne g[n] (List.getElem_mem hgt) (List.mem_flatten.2 ⟨g1, List.mem_of_getElem? hgs, List.mem_of_getElem? this⟩)
    · rintro (⟨heq, hl⟩ | ⟨hlt, hnil⟩) i r hr
      · by_cases hi : i < g.length
        · rw [List.getElem?_append_left hi] at hr
          rw [heq] at hi
          rw [Nat.div_eq_of_lt hi, Nat.mod_eq_of_lt hi]
          simpa using hr
        · rw [List.getElem?_append_right (by omega)] at hr
          obtain ⟨j, rfl⟩ : ∃ j, i = j + n := ⟨i - n, by omega⟩
          rw [heq, Nat.add_sub_cancel] at hr
          rw [Nat.add_div_right j hn, Nat.add_mod_right]
          simpa using (ih hd2).2 hl j r hr
      · rw [hnil, List.append_nil] at hr
        have hi := (List.getElem?_eq_some_iff.1 hr).1
        rw [Nat.div_eq_of_lt (by omega), Nat.mod_eq_of_lt (by omega)]
        simpa using hr

/-- The same from any state of the loader. -/
theorem low_iff_inv {R : Type} (data : Nat → ParquetFile R) (k : Nat) (hd : (data k).flatten.Nodup) (st : ParquetState R) (hi : ParquetInv data st) (begin : Nat) :
    (∀ (i : Nat) (r : R), (data k).flatten[i]? = some r → ∃ st', parquetLoad true (some (data k)) st k (begin + i) begin = .ok (r, st')) ↔
    (data k).flatten = [] ∨ ∃ g0 gs, data k = g0 :: gs ∧ 0 < g0.length ∧ LowLayout g0.length (data k) := by
  cases hf : data k with
  | nil => simp
  | cons g0 gs =>
    have h0 : (data k)[0]? = some g0 := by rw [hf]; rfl
    by_cases hpos : 0 < g0.length
    · have hval : ∀ i r, (∃ st', parquetLoad true (some (data k)) st k (begin + i) begin = .ok (r, st')) ↔
          ((data k)[i / g0.length]?.bind fun g => g[i % g0.length]?) = some r := by
        intro i r
        obtain ⟨s1, _, h2⟩ := parquetLow_spec hi k i true g0 h0 hpos (.inr rfl)
        have e : parquetLoad true (some (data k)) st k (begin + i) begin = parquetLow (fileIf data k true) st k i := by
          unfold parquetLoad
          rw [if_neg (by omega), Nat.add_sub_cancel_left]
          rfl
        rw [e, h2]
        cases (data k)[i / g0.length]?.bind fun g => g[i % g0.length]? with
        | none => simp
        | some r' =>
          constructor
          · rintro ⟨_, h⟩; cases h; rfl
          · intro h; cases h; exact ⟨_, rfl⟩
      rw [← hf]
      simp only [hval]
      rw [layout_iff g0.length hpos (data k) hd]
      constructor
      · intro h
        exact .inr ⟨g0, gs, hf, hpos, h⟩
      · rintro (h | ⟨g0', gs', he, _, hl⟩)
        · rw [hf, List.flatten_cons] at h
          have := (List.append_eq_nil_iff.1 h).1
          rw [this] at hpos
          exact absurd hpos (by simp)
        · rw [hf] at he
          cases he
          exact hl
    · have hz : g0 = [] := List.length_eq_zero_iff.1 (by omega)
      subst hz
      rw [← hf]
      constructor
      · intro h
        left
        cases hr : (data k).flatten with
        | nil => rfl
        | cons r rs =>
          obtain ⟨st', h'⟩ := h 0 r (by rw [hr]; rfl)
          unfold parquetLoad at h'
          rw [if_neg (by omega)] at h'
          simp only [if_true, parquetLow] at h'
          have hu := parquet_used hi (k := k) (p := true)
          rw [if_pos (.inr rfl)] at hu
          have hfile : fileIf data k true = some (data k) := rfl
          rw [hfile] at hu
          rw [hu] at h'
          simp only [h0] at h'
          cases h'
      · rintro (h | ⟨g0', gs', he, hp, _⟩)
        · intro i r hr
          rw [h] at hr
          simp at hr
        · rw [hf] at he
          cases he
          simp at hp

/-- **C33, exactly when low-memory mode is right.** For a file whose rows all differ, and whatever was read, closed and reopened before: all rows are read rightly if and
only if the row groups have the size of the first one, except a last one with rows that is shorter. -/
theorem c33_low_iff {R : Type} (data : Nat → ParquetFile R) (k : Nat) (hd : (data k).flatten.Nodup) (ops : List ParquetOp) (begin : Nat) :
    (∀ (i : Nat) (r : R), (data k).flatten[i]? = some r →
      ∃ st', parquetLoad true (some (data k)) (ops.foldl (parquetStep true data) ParquetState.init) k (begin + i) begin = .ok (r, st')) ↔
    (data k).flatten = [] ∨ ∃ g0 gs, data k = g0 :: gs ∧ 0 < g0.length ∧ LowLayout g0.length (data k) := by
  exact low_iff_inv data k hd _ (parquetRun_inv true data ops) begin

/-- Rows 0 to 4 in groups of 2, 2, 1 and 0 rows are read rightly; in groups of 2, 3 and 1 rows they are not. -/
example : LowLayout 2 [[0, 1], [2, 3], [4], []] ∧ ¬ LowLayout 2 [[0, 1], [2, 3, 4], [5]] := by
  constructor
  · exact .inl ⟨rfl, .inl ⟨rfl, .inr ⟨by decide, rfl⟩⟩⟩
  · rintro (⟨_, ⟨h, _⟩ | ⟨h, _⟩⟩ | ⟨h, _⟩) <;> simp at h

end LitData.Props
