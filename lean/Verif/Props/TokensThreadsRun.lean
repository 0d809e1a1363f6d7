import Verif.Props.TokensThreadsReader

/-! Property C77, continued: whole runs and what is delivered. -/

namespace LitData.Props
open LitData Spec

theorem tt_step {cfg : TokPass} (hok : TokPassOk cfg) (hcc : ChunkByChunk cfg.items) {s s' : TokThreads} {a : TokAct} (hi : TTInv cfg s)
    (h : tokAct cfg s a = some s') : TTInv cfg s' := by
  cases a with
  | reader => exact tt_reader hok hcc hi h
  | line => exact tt_thread hok hi h
  | fetch k =>
    simp only [tokAct] at h
    split at h
    · rename_i hp
      cases h
      have hw : s.file k ≠ none → s.file k = cfg.files k := by
        intro h
        obtain ⟨f, hf⟩ := Option.ne_none_iff_exists'.1 h
        rcases hi.file k f hf with h | ⟨h, _⟩
        · rw [hf, h]
        · rw [hp] at h; cases h
      obtain ⟨i1, i2, i3, i4, i5, i6, i7, i8, i9, i10, i11, i12, i13, i14, i15, i16, i17, i18, i19, i20⟩ := hi
      cases hf : s.file k
      · simp only [Option.isSome_none, Bool.false_eq_true, if_false]
        constructor <;> first | assumption | grind [tokLoading, tokDeleting]
      · simp only [Option.isSome_some, if_true]
        constructor <;> first | assumption | grind [tokLoading, tokDeleting]
    · cases h
  | part n =>
    simp only [tokAct] at h
    split at h
    · split at h
      · cases h
      · split at h
        · cases h
          obtain ⟨i1, i2, i3, i4, i5, i6, i7, i8, i9, i10, i11, i12, i13, i14, i15, i16, i17, i18, i19, i20⟩ := hi
          constructor <;> first | assumption | grind [setKey, tokLoading, tokDeleting]
        · cases h
    · cases h
  | arrive =>
    simp only [tokAct] at h
    split at h
    · split at h
      · cases h
      · cases h
        obtain ⟨i1, i2, i3, i4, i5, i6, i7, i8, i9, i10, i11, i12, i13, i14, i15, i16, i17, i18, i19, i20⟩ := hi
        constructor <;> first | assumption | grind [setKey, tokLoading, tokDeleting]
    · cases h
  | preLoad yes =>
    simp only [tokAct] at h
    split at h
    · cases h
      obtain ⟨i1, i2, i3, i4, i5, i6, i7, i8, i9, i10, i11, i12, i13, i14, i15, i16, i17, i18, i19, i20⟩ := hi
      constructor <;> first | assumption | grind [setKey, tokLoading, tokDeleting]
    · cases h
  | delete k =>
    simp only [tokAct] at h
    split at h
    · cases h
      obtain ⟨i1, i2, i3, i4, i5, i6, i7, i8, i9, i10, i11, i12, i13, i14, i15, i16, i17, i18, i19, i20⟩ := hi
      constructor <;> first | assumption | grind [setKey, tokLoading, tokDeleting]
    · cases h

theorem tt_run {cfg : TokPass} (hok : TokPassOk cfg) (hcc : ChunkByChunk cfg.items) (as : List TokAct) {s s' : TokThreads} (hi : TTInv cfg s)
    (h : tokActs cfg as s = some s') : TTInv cfg s' := by
  induction as generalizing s with
  | nil => cases h; exact hi
  | cons a as ih =>
    simp only [tokActs, Option.bind_eq_some_iff] at h
    obtain ⟨t, h1, h2⟩ := h
    exact ih (tt_step hok hcc hi h1) h2

end LitData.Props
