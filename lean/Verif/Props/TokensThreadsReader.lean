import Verif.Props.TokensThreads

/-! Property C77, continued: the lines of the reader. -/

namespace LitData.Props
open LitData Spec

theorem notAhead_mono {items : List (Nat × Nat)} {n m g : Nat} (h : NotAhead items n g) (hm : n ≤ m) : NotAhead items m g :=
  fun i k j hi hk => h i k j (Nat.le_trans hm hi) hk

theorem tt_close_ne {cfg : TokPass} {s : TokThreads} (hi : TTInv cfg s) {g : Nat} {l : TokClose} {gs : List Nat} (h : s.rpc = .close g l gs) : s.last ≠ none := by
  intro e
  have := (hi.last0 e).2
  rw [h] at this
  cases this

/-- The chunk given up is not asked for again. -/
theorem tt_given_up {cfg : TokPass} (hcc : ChunkByChunk cfg.items) {s : TokThreads} (hi : TTInv cfg s) {k j : Nat} (hit : cfg.items[s.done]? = some (k, j)) :
    ∀ g ∈ (if s.last = some k then [] else s.last.toList) ++ (if s.done + 1 = cfg.items.length then [k] else []), NotAhead cfg.items (s.done + 1) g := by
  intro g hg
  rcases List.mem_append.1 hg with hg | hg
  · split at hg
    · cases hg
    · rename_i hne
      cases hl : s.last with
      | none => rw [hl] at hg; cases hg
      | some l =>
        rw [hl] at hg
        simp only [Option.toList, List.mem_singleton] at hg
        subst hg
        obtain ⟨i, h1⟩ := hi.last1 g hl
        have hkg : k ≠ g := fun e => hne (by rw [hl, e])
        by_cases h0 : s.done = 0
        · rw [h0] at h1 hit
          rw [hit] at h1
          cases h1
          exact absurd rfl hkg
        · have h2 : cfg.items[s.done - 1 + 1]? = some (k, j) := by rw [Nat.sub_add_cancel (by omega)]; exact hit
          have := hcc (s.done - 1) g i k j h1 h2 hkg
          exact notAhead_mono this (by omega)
  · split at hg
    · rename_i hlen
      intro i k' j' h1 h2
      have := (List.getElem?_eq_some_iff.1 h2).1
      omega
    · cases hg

set_option maxHeartbeats 8000000 in
theorem tt_reader {cfg : TokPass} (hok : TokPassOk cfg) (hcc : ChunkByChunk cfg.items) {s s' : TokThreads} (hi : TTInv cfg s) (h : tokReaderLine cfg s = some s') :
    TTInv cfg s' := by
  have hcur := @tt_current cfg s hi
  unfold tokReaderLine at h
  split at h
  case h_8 g gs hp =>
    split at h
    · cases h
      obtain ⟨i1, i2, i3, i4, i5, i6, i7, i8, i9, i10, i11, i12, i13, i14, i15, i16, i17, i18, i19, i20⟩ := hi
      constructor <;> first | assumption | grind [pendingGives, tokReady]
    · rename_i m hm
      cases h
      obtain ⟨i1, i2, i3, i4, i5, i6, i7, i8, i9, i10, i11, i12, i13, i14, i15, i16, i17, i18, i19, i20⟩ := tt_unmap hi hm (hi.closing g _ _ hp)
      constructor <;> first | assumption | grind [pendingGives, tokReady]
  case h_11 =>
    split at h
    · cases h
    · rename_i k j hit
      have hk := hcur hit
      split at h
      case h_6 hp =>
        obtain ⟨h0, h1⟩ := hi.ready k j (by simp [hp, tokReady]) hit
        obtain ⟨f, c, hf, hc, hm⟩ := tokMap_whole hok h0 h1
        rw [hm] at h
        cases h
        obtain ⟨i1, i2, i3, i4, i5, i6, i7, i8, i9, i10, i11, i12, i13, i14, i15, i16, i17, i18, i19, i20⟩ := tt_append hi hf hc rfl
        constructor
        case rmap =>
          intro m' k' j' h h'
          rw [show cfg.items[s.done]? = some (k, j) from hit] at h'
          cases h'
          rcases h with h | h | h
          · cases h; exact ⟨some (f.drop ((1 + c.chunkSize + 1) * 4)), by simp⟩
          · cases h
          · cases h
        all_goals first | assumption | grind [pendingGives, tokReady]
      case h_10 m hp =>
        split at h
        · rename_i k' b hm
          split at h
          · cases h
            have hg := tt_given_up hcc hi hit
            have hlt := (List.getElem?_eq_some_iff.1 hit).1
            obtain ⟨i1, i2, i3, i4, i5, i6, i7, i8, i9, i10, i11, i12, i13, i14, i15, i16, i17, i18, i19, i20⟩ := hi
            constructor
            case given => exact fun g h => notAhead_mono (i2 g h) (Nat.le_succ _)
            case giving => exact hg
            case last1 =>
              intro l h
              cases h
              exact ⟨j, hit⟩
            case bothSet =>
              intro k' h1 h2
              rcases i18 k' h1 h2 with h | h | ⟨m, j, h, _⟩
              · exact .inl h
              · exact .inr (.inl h)
              · rw [hp] at h; cases h
            all_goals first | assumption | grind [pendingGives, tokReady]
          · cases h
            obtain ⟨i1, i2, i3, i4, i5, i6, i7, i8, i9, i10, i11, i12, i13, i14, i15, i16, i17, i18, i19, i20⟩ := hi
            constructor <;> first | assumption | grind [pendingGives, tokReady]
        · cases h
          obtain ⟨i1, i2, i3, i4, i5, i6, i7, i8, i9, i10, i11, i12, i13, i14, i15, i16, i17, i18, i19, i20⟩ := hi
          constructor <;> first | assumption | grind [pendingGives, tokReady]
      case h_3 hp =>
        split at h
        · cases h
          obtain ⟨i1, i2, i3, i4, i5, i6, i7, i8, i9, i10, i11, i12, i13, i14, i15, i16, i17, i18, i19, i20⟩ := hi
          constructor <;> first | assumption | grind [pendingGives, tokReady]
        · rename_i c hc
          split at h
          · cases h
          · rename_i f hf
            split at h
            · rename_i hlen
              cases h
              have hw : s.file k ≠ none ∧ s.file k = cfg.files k := by
                rcases hi.file k f hf with h | ⟨_, g, hg, hl⟩
                · exact ⟨by rw [hf]; simp, by rw [hf, h]⟩
                · obtain ⟨c', hc', hcb, _⟩ := hok k g hg
                  rw [hc] at hc'
                  cases hc'
                  omega
              obtain ⟨i1, i2, i3, i4, i5, i6, i7, i8, i9, i10, i11, i12, i13, i14, i15, i16, i17, i18, i19, i20⟩ := hi
              constructor <;> first | assumption | grind [setKey, pendingGives, tokReady]
            · cases h
      case h_8 m hp =>
        cases h
        obtain ⟨c0, hc0⟩ := hi.rmap m k j (.inr (.inl hp)) hit
        obtain ⟨i1, i2, i3, i4, i5, i6, i7, i8, i9, i10, i11, i12, i13, i14, i15, i16, i17, i18, i19, i20⟩ := hi
        constructor
        case buf =>
          intro k' m' h
          by_cases e : k' = k
          · simp only [setKey, if_pos e, Option.some.injEq] at h
            rw [← h, e]
            exact ⟨c0, hc0⟩
          · simp only [setKey, if_neg e] at h
            exact i10 k' m' h
        case bothSet =>
          intro k' h1 h2
          by_cases e : k' = k
          · exact .inl (by simp [setKey, e])
          · rcases i18 k' h1 h2 with h | h | ⟨m, j, h, h'⟩
            · exact .inl (by simpa [setKey, e] using h)
            · exact .inr (.inl h)
            · rw [hit] at h'; cases h'; exact absurd rfl e
        case got => exact fun k' j' _ h' => i19 k' j' (.inr ⟨m, hp⟩) h'
        all_goals first | assumption | grind [pendingGives, tokReady]
      case h_2 hp =>
        split at h
        · rename_i hkn
          cases h
          have hw := hi.known k hk hkn.1
          obtain ⟨i1, i2, i3, i4, i5, i6, i7, i8, i9, i10, i11, i12, i13, i14, i15, i16, i17, i18, i19, i20⟩ := hi
          constructor <;> first | assumption | grind [setKey, pendingGives, tokReady]
        · cases h
          obtain ⟨i1, i2, i3, i4, i5, i6, i7, i8, i9, i10, i11, i12, i13, i14, i15, i16, i17, i18, i19, i20⟩ := hi
          constructor <;> first | assumption | grind [setKey, pendingGives, tokReady]
      all_goals obtain ⟨i1, i2, i3, i4, i5, i6, i7, i8, i9, i10, i11, i12, i13, i14, i15, i16, i17, i18, i19, i20⟩ := hi
      all_goals (try split at h)
      all_goals (first | cases h | skip)
      all_goals constructor <;> first | assumption | grind [setKey, pendingGives, tokLoading, tokDeleting, tokReady]
  case h_9 g gs hp =>
    have hg := hi.closing g _ _ hp
    obtain ⟨i1, i2, i3, i4, i5, i6, i7, i8, i9, i10, i11, i12, i13, i14, i15, i16, i17, i18, i19, i20⟩ := hi
    split at h
    · cases h
      constructor <;> first | assumption | grind [pendingGives, tokReady]
    · cases h
      constructor
      case bothSet =>
        intro k' h1 h2
        by_cases e : k' = g
        · exact absurd (e ▸ hg) h1
        · simp only [setKey, if_neg e] at h2
          rcases i18 k' h1 h2 with h | h | ⟨m, j, h, _⟩
          · exact .inl h
          · exact .inr (.inl h)
          · rw [hp] at h; cases h
      all_goals first | assumption | grind [setKey, pendingGives, tokReady]
  all_goals obtain ⟨i1, i2, i3, i4, i5, i6, i7, i8, i9, i10, i11, i12, i13, i14, i15, i16, i17, i18, i19, i20⟩ := hi
  all_goals (try split at h)
  all_goals (first | cases h | skip)
  all_goals constructor <;> first | assumption | grind [setKey, pendingGives, tokLoading, tokDeleting, tokReady]

end LitData.Props
