import Verif.Props.TokensThreadsMain

/-! Property C77, continued: when closing a chunk and deleting it do not get in each other's way. -/

namespace LitData.Props
open LitData Spec

/-- How many of the first `n` items are blocks of chunk `g`. -/
def readOf (items : List (Nat × Nat)) (n g : Nat) : Nat := ((items.take n).filter fun x => x.1 == g).length

/-- Every chunk that occurs occurs at least twice. -/
def TwoEach (items : List (Nat × Nat)) : Prop := ∀ x ∈ items, 2 ≤ readOf items items.length x.1

/-- The thread has deleted the chunk, up to its file at most. -/
def Cleared (deleted : List Nat) (t : TokTpc) (g : Nat) : Prop := g ∈ deleted ∧ (tokDeleting t = some g → t = .delFile g)

/-- The reader has counted itself and not yet delivered the block. -/
def tokPast : TokRpc → Bool
  | .test | .map | .setMap _ | .setBuf _ | .get | .view _ => true
  | _ => false

/-- The reader closes the chunk and has found that nobody else reads it. -/
def tokClearing : TokRpc → Option Nat
  | .close g .testBuf _ | .close g .buf _ | .close g .testMap _ | .close g .unmap _ | .close g .map _ => some g
  | _ => none

/-- The thread has removed the buffer of the chunk and not yet its counter. -/
def tokHalf : TokTpc → Option Nat
  | .delTestMap k | .delClose k | .delMap k | .delCount k => some k
  | _ => none

structure TTClose (items : List (Nat × Nat)) (s : TokThreads) : Prop where
  counted : ∀ g, g ∉ s.given → (readOf items s.done g : Int) ≤ s.counter g
  past : ∀ k j, tokPast s.rpc = true → items[s.done]? = some (k, j) → (readOf items s.done k : Int) + 1 ≤ s.counter k
  there : ∀ k j, (tokPast s.rpc = true ∨ s.rpc = .count) → items[s.done]? = some (k, j) → s.file k ≠ none
  view : ∀ m k j, s.rpc = .view m → items[s.done]? = some (k, j) → s.mm k ≠ none ∧ s.buf k ≠ none
  read : ∀ g, g ∉ s.given → 0 < readOf items s.done g → s.mm g ≠ none ∧ s.buf g ≠ none ∧ s.file g ≠ none
  pend : (pendingGives s.rpc).Nodup ∧ ∀ g ∈ pendingGives s.rpc, g ∉ s.given ∧ 0 < readOf items s.done g
  last : s.done < items.length → ∀ l, s.last = some l → l ∉ s.given ∧ l ∉ pendingGives s.rpc
  count : ∀ g gs, s.rpc = .close g .count gs → ¬Cleared s.deleted s.tpc g → 2 ≤ s.counter g
  one : ∀ g ∈ s.given, ¬Cleared s.deleted s.tpc g → 1 ≤ s.counter g
  mm : ∀ g ∈ s.given, ¬Cleared s.deleted s.tpc g → s.mm g ≠ none ∨ s.tpc = .delCount g
  buf : ∀ g ∈ s.given, ¬Cleared s.deleted s.tpc g → s.buf g ≠ none ∨ tokHalf s.tpc = some g
  file : ∀ g ∈ s.given, ¬Cleared s.deleted s.tpc g → s.file g ≠ none
  clearing : ∀ g, tokClearing s.rpc = some g → Cleared s.deleted s.tpc g
  cbuf : ∀ g gs, s.rpc = .close g .buf gs → s.buf g ≠ none
  cmm : ∀ g gs, s.rpc = .close g .unmap gs ∨ s.rpc = .close g .map gs → s.mm g ≠ none
  deleted : ∀ g, tokDeleting s.tpc = some g → g ∈ s.deleted
  alive : ∀ e, s.tpc ≠ .dead e

theorem tc_init (items : List (Nat × Nat)) : TTClose items TokThreads.init := by
  constructor <;> simp [TokThreads.init, pendingGives, tokDeleting, tokPast, tokClearing, readOf]

theorem readOf_all {items : List (Nat × Nat)} {n g : Nat} (h : NotAhead items n g) : readOf items n g = readOf items items.length g := by
  unfold readOf
  rw [List.take_length]
  conv => rhs; rw [← List.take_append_drop n items]
  rw [List.filter_append, List.length_append]
  have : (items.drop n).filter (fun x => x.1 == g) = [] := by
    rw [List.filter_eq_nil_iff]
    intro x hx he
    obtain ⟨i, hi, rfl⟩ := List.getElem_of_mem hx
    rw [List.getElem_drop] at he
    rw [List.length_drop] at hi
    have h1 : items[n + i]? = some (items[n + i].1, items[n + i].2) := by rw [List.getElem?_eq_getElem (by omega)]
    exact h (n + i) _ _ (by omega) h1 (by simpa using he)
  rw [this]
  simp

theorem readOf_succ {items : List (Nat × Nat)} {n k j : Nat} (h : items[n]? = some (k, j)) (g : Nat) :
    readOf items (n + 1) g = readOf items n g + if k = g then 1 else 0 := by
  obtain ⟨hlt, he⟩ := List.getElem?_eq_some_iff.1 h
  unfold readOf
  rw [List.take_succ_eq_append_getElem hlt, he, List.filter_append, List.length_append]
  by_cases e : k = g <;> simp [e]

set_option maxHeartbeats 8000000 in
theorem tc_thread {cfg : TokPass} (hok : TokPassOk cfg) {s s' : TokThreads} (hi : TTInv cfg s) (hc : TTClose cfg.items s) (h : tokThreadLine cfg s = some s') :
    TTClose cfg.items s' := by
  have hcur := @tt_current cfg s hi
  have hdel := hi.deleting
  have hload := hi.loading
  unfold tokThreadLine at h
  split at h
  case h_5 k hp =>
    obtain ⟨h0, h1⟩ := hi.loading k (by simp [hp, tokLoading])
    obtain ⟨f, c, hf, hc', hm⟩ := tokMap_whole hok h0 h1
    rw [hm] at h
    cases h
    obtain ⟨i1, i2, i3, i4, i5, i6, i7, i8, i9, i10, i11, i12, i13, i14, i15, i16, i17⟩ := hc
    constructor <;> first | assumption | grind [setKey, tokDeleting, Cleared, tokHalf]
  all_goals obtain ⟨i1, i2, i3, i4, i5, i6, i7, i8, i9, i10, i11, i12, i13, i14, i15, i16, i17⟩ := hc
  case h_10 k hp =>
    have hkd := hdel k (by simp [hp, tokDeleting])
    have hnc : ¬Cleared s.deleted s.tpc k := by simp [Cleared, hp, tokDeleting]
    split at h
    · rename_i hn
      rcases i11 k hkd hnc with h' | h'
      · exact absurd hn h'
      · simp [hp, tokHalf] at h'
    · cases h
      constructor
      case view =>
        intro m k' j h1 h2
        have hne : k' ≠ k := fun e => hcur h2 (e ▸ hkd)
        simpa [setKey, hne] using i4 m k' j h1 h2
      case read =>
        intro g h1 h2
        have hne : g ≠ k := fun e => h1 (e ▸ hkd)
        simpa [setKey, hne] using i5 g h1 h2
      case cbuf =>
        intro g gs h1
        have hne : g ≠ k := fun e => hnc (e ▸ i13 g (by rw [h1]; rfl))
        simpa [setKey, hne] using i14 g gs h1
      all_goals first | assumption | grind [setKey, tokDeleting, Cleared, tokHalf]
  case h_13 k hp =>
    have hkd := hdel k (by simp [hp, tokDeleting])
    have hnc : ¬Cleared s.deleted s.tpc k := by simp [Cleared, hp, tokDeleting]
    split at h
    · rename_i hn
      rcases i10 k hkd hnc with h' | h'
      · exact absurd hn h'
      · rw [hp] at h'; cases h'
    · cases h
      constructor
      case view =>
        intro m k' j h1 h2
        have hne : k' ≠ k := fun e => hcur h2 (e ▸ hkd)
        simpa [setKey, hne] using i4 m k' j h1 h2
      case read =>
        intro g h1 h2
        have hne : g ≠ k := fun e => h1 (e ▸ hkd)
        simpa [setKey, hne] using i5 g h1 h2
      case cmm =>
        intro g gs h1
        have hne : g ≠ k := fun e => hnc (e ▸ i13 g (by have h1' : s.rpc = .close g .unmap gs ∨ s.rpc = .close g .map gs := h1; rcases h1' with h | h <;> rw [h] <;> rfl))
        simpa [setKey, hne] using i15 g gs h1
      all_goals first | assumption | grind [setKey, tokDeleting, Cleared, tokHalf]
  all_goals (try split at h)
  all_goals (first | cases h | skip)
  all_goals constructor <;> first | assumption | grind [setKey, tokDeleting, Cleared, tokHalf]

theorem two_read {items : List (Nat × Nat)} (h2 : TwoEach items) {n g : Nat} (hn : NotAhead items n g) (hm : 0 < readOf items n g) : 2 ≤ readOf items n g := by
  rw [readOf_all hn]
  obtain ⟨x, hx⟩ := List.exists_mem_of_length_pos hm
  obtain ⟨h1, h3⟩ := List.mem_filter.1 hx
  have := h2 x (List.mem_of_mem_take h1)
  rwa [eq_of_beq h3] at this

set_option maxHeartbeats 8000000 in
theorem tc_reader {cfg : TokPass} (hok : TokPassOk cfg) (h2 : TwoEach cfg.items) {s s' : TokThreads} (hi : TTInv cfg s) (hc : TTClose cfg.items s)
    (h : tokReaderLine cfg s = some s') : TTClose cfg.items s' := by
  have hcur := @tt_current cfg s hi
  have hclo := hi.closing
  unfold tokReaderLine at h
  split at h
  case h_11 =>
    split at h
    · cases h
    · rename_i k j hit
      have hk := hcur hit
      split at h
      case h_10 m hp =>
        have hv := hc.view m k j hp hit
        have hf := hc.there k j (.inl (by rw [hp]; rfl)) hit
        have hp1 := hc.past k j (by rw [hp]; rfl) hit
        have hlast1 := hi.last1
        have hlt := (List.getElem?_eq_some_iff.1 hit).1
        obtain ⟨i1, i2, i3, i4, i5, i6, i7, i8, i9, i10, i11, i12, i13, i14, i15, i16, i17⟩ := hc
        split at h
        · split at h
          · cases h
            have hold : ∀ l, s.last = some l → l ≠ k → 0 < readOf cfg.items (s.done + 1) l := by
              intro l hl hne
              obtain ⟨j', h1⟩ := hlast1 l hl
              by_cases h0 : s.done = 0
              · rw [h0] at h1 hit
                rw [hit] at h1
                cases h1
                exact absurd rfl hne
              · have := readOf_succ h1 l
                rw [Nat.sub_add_cancel (by omega), if_pos rfl] at this
                rw [readOf_succ hit]
                omega
            have hself : 0 < readOf cfg.items (s.done + 1) k := by rw [readOf_succ hit, if_pos rfl]; omega
            constructor
            case counted =>
              intro g hg
              simp only
              rw [readOf_succ hit]
              split
              · rename_i e; subst e; simpa using hp1
              · simpa using i1 g hg
            case read =>
              intro g hg
              simp only
              rw [readOf_succ hit]
              split
              · rename_i e; subst e; exact fun _ => ⟨hv.1, hv.2, hf⟩
              · exact i5 g hg
            case pend =>
              simp only [pendingGives]
              cases hl : s.last with
              | none =>
                refine ⟨by simp; split <;> simp, ?_⟩
                intro g hg
                simp at hg
                obtain ⟨_, rfl⟩ := hg
                exact ⟨hk, hself⟩
              | some l =>
                obtain ⟨h1, _⟩ := i7 hlt l hl
                by_cases e : l = k
                · subst e
                  refine ⟨by simp; split <;> simp, ?_⟩
                  intro g hg
                  simp at hg
                  obtain ⟨_, rfl⟩ := hg
                  exact ⟨hk, hself⟩
                · have h2' := hold l hl e
                  constructor
                  · rw [if_neg (by simpa using e)]
                    split <;> simp [e]
                  · intro g hg
                    rw [if_neg (by simpa using e)] at hg
                    simp at hg
                    rcases hg with rfl | ⟨_, rfl⟩
                    · exact ⟨h1, h2'⟩
                    · exact ⟨hk, hself⟩
            case last =>
              intro h1 l h
              cases h
              refine ⟨hk, ?_⟩
              simp only [pendingGives]
              rw [if_neg (show ¬s.done + 1 = cfg.items.length from fun e => by simp only at h1; omega)]
              cases hl : s.last with
              | none => simp
              | some l =>
                by_cases e : l = k
                · simp [e]
                · rw [if_neg (by simpa using e)]; simp; exact fun h => e h.symm
            all_goals first | assumption | grind [pendingGives, tokPast, tokClearing]
          · cases h
            constructor <;> first | assumption | grind [pendingGives, tokPast, tokClearing]
        · cases h
          constructor <;> first | assumption | grind [pendingGives, tokPast, tokClearing]
      case h_6 hp =>
        obtain ⟨h0, h1⟩ := hi.ready k j (by simp [hp, tokReady]) hit
        obtain ⟨f, c, hf, hc', hm⟩ := tokMap_whole hok h0 h1
        rw [hm] at h
        cases h
        obtain ⟨i1, i2, i3, i4, i5, i6, i7, i8, i9, i10, i11, i12, i13, i14, i15, i16, i17⟩ := hc
        constructor <;> first | assumption | grind [setKey, pendingGives, tokPast, tokClearing]
      case h_3 hp =>
        split at h
        · cases h
          obtain ⟨i1, i2, i3, i4, i5, i6, i7, i8, i9, i10, i11, i12, i13, i14, i15, i16, i17⟩ := hc
          constructor <;> first | assumption | grind [setKey, pendingGives, tokPast, tokClearing]
        · split at h
          · cases h
          · split at h
            · cases h
              obtain ⟨i1, i2, i3, i4, i5, i6, i7, i8, i9, i10, i11, i12, i13, i14, i15, i16, i17⟩ := hc
              constructor <;> first | assumption | grind [setKey, pendingGives, tokPast, tokClearing]
            · cases h
      all_goals have hgot := hi.got
      all_goals have hl0 := hi.last0
      all_goals obtain ⟨i1, i2, i3, i4, i5, i6, i7, i8, i9, i10, i11, i12, i13, i14, i15, i16, i17⟩ := hc
      all_goals (try split at h)
      all_goals (first | cases h | skip)
      all_goals constructor <;> first | assumption | grind [setKey, pendingGives, tokPast, tokClearing, Option.ne_none_iff_isSome]
  case h_2 g gs hp =>
    cases h
    have hg := hi.giving
    obtain ⟨i1, i2, i3, i4, i5, i6, i7, i8, i9, i10, i11, i12, i13, i14, i15, i16, i17⟩ := hc
    rw [hp] at hg i6 i7
    simp only [pendingGives] at hg i6 i7
    obtain ⟨hgn, hgp⟩ := i6.2 g (by simp)
    have htwo := two_read h2 (hg g (by simp)) hgp
    have hcount := i1 g hgn
    obtain ⟨hr1, hr2, hr3⟩ := i5 g hgn hgp
    constructor
    case pend =>
      simp only [pendingGives]
      refine ⟨(List.nodup_cons.1 i6.1).2, ?_⟩
      intro x hx
      refine ⟨?_, (i6.2 x (by simp [hx])).2⟩
      simp only [List.mem_append, List.mem_singleton, not_or]
      exact ⟨(i6.2 x (by simp [hx])).1, fun e => (List.nodup_cons.1 i6.1).1 (e ▸ hx)⟩
    case last =>
      intro h1 l hl
      have := i7 h1 l hl
      simp only [List.mem_append, List.mem_singleton, pendingGives]
      simp only [List.mem_cons, not_or] at this
      exact ⟨fun h => h.elim this.1 this.2.1, this.2.2⟩
    case counted => exact fun x hx => i1 x fun h => hx (by simp [h])
    case read => exact fun x hx => i5 x fun h => hx (by simp [h])
    case count =>
      intro x xs h _
      cases h
      simp only
      omega
    case one =>
      intro x hx hn
      simp only [List.mem_append, List.mem_singleton] at hx
      rcases hx with hx | rfl
      · exact i9 x hx hn
      · simp only; omega
    case mm =>
      intro x hx hn
      simp only [List.mem_append, List.mem_singleton] at hx
      rcases hx with hx | rfl
      · exact i10 x hx hn
      · exact .inl hr1
    case buf =>
      intro x hx hn
      simp only [List.mem_append, List.mem_singleton] at hx
      rcases hx with hx | rfl
      · exact i11 x hx hn
      · exact .inl hr2
    case file =>
      intro x hx hn
      simp only [List.mem_append, List.mem_singleton] at hx
      rcases hx with hx | rfl
      · exact i12 x hx hn
      · exact hr3
    all_goals first | assumption | grind [tokPast, tokClearing]
  all_goals obtain ⟨i1, i2, i3, i4, i5, i6, i7, i8, i9, i10, i11, i12, i13, i14, i15, i16, i17⟩ := hc
  all_goals (try split at h)
  all_goals (first | cases h | skip)
  all_goals constructor <;> first | assumption | grind [setKey, pendingGives, tokPast, tokClearing, Option.ne_none_iff_isSome]

end LitData.Props
