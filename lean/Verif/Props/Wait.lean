import Verif.Model.Wait

/-! The wait for the file of a chunk (C89). -/

namespace LitData.Props

open LitData

theorem waitLoop_found (F M : Nat) (ps : List Poll) : ∀ (first req : Bool) (n k : Nat), (waitLoop (some (F, M)) first req n k ps).stop = .found ↔
    first = true ∨ ∃ (i : Nat) (p : Poll), ps[i]? = some p ∧ p.there = true ∧ ∀ (j : Nat) (q : Poll), j ≤ i → ps[j]? = some q → q.maxTime ≤ M := by
  induction ps with
  | nil => intro first req n k; cases first <;> simp [waitLoop]
  | cons a ps ih =>
    intro first req n k
    cases first with
    | true => simp [waitLoop]
    | false =>
      simp only [waitLoop]
      split
      · rename_i h
        simp only [Bool.false_eq_true, false_or]
        constructor
        · intro e; cases e
        · rintro ⟨i, p, h1, h2, h3⟩
          have := h3 0 a (Nat.zero_le _) rfl
          omega
      · rename_i h
        rw [ih]
        simp only [Bool.false_eq_true, false_or]
        constructor
        · rintro (e | ⟨i, p, h1, h2, h3⟩)
          · refine ⟨0, a, rfl, e, ?_⟩
            intro j q hj hq
            have : j = 0 := by omega
            subst this
            cases hq
            omega
          · refine ⟨i + 1, p, h1, h2, ?_⟩
            intro j q hj hq
            cases j with
            | zero => cases hq; omega
            | succ j => exact h3 j q (by omega) hq
        · rintro ⟨i, p, h1, h2, h3⟩
          cases i with
          | zero => cases h1; exact .inl h2
          | succ i => exact .inr ⟨i, p, h1, h2, fun j q hj hq => h3 (j + 1) q (by omega) hq⟩

theorem waitLoop_raised (F M : Nat) (ps : List Poll) : ∀ (first req : Bool) (n k : Nat), (waitLoop (some (F, M)) first req n k ps).stop = .raised ↔
    first = false ∧ ∃ (i : Nat) (p : Poll), ps[i]? = some p ∧ M < p.maxTime ∧ ∀ (j : Nat) (q : Poll), j < i → ps[j]? = some q → q.there = false := by
  induction ps with
  | nil => intro first req n k; cases first <;> simp [waitLoop]
  | cons a ps ih =>
    intro first req n k
    cases first with
    | true => simp [waitLoop]
    | false =>
      simp only [waitLoop, true_and]
      split
      · rename_i h
        simp only [true_iff]
        exact ⟨0, a, rfl, h, by intro j q hj; omega⟩
      · rename_i h
        rw [ih]
        constructor
        · rintro ⟨e, i, p, h1, h2, h3⟩
          refine ⟨i + 1, p, h1, h2, ?_⟩
          intro j q hj hq
          cases j with
          | zero => cases hq; exact e
          | succ j => exact h3 j q (by omega) hq
        · rintro ⟨i, p, h1, h2, h3⟩
          cases i with
          | zero => cases h1; omega
          | succ i => exact ⟨h3 0 a (by omega) rfl, i, p, h1, h2, fun j q hj hq => h3 (j + 1) q (by omega) hq⟩

theorem waitLoop_polls (lim : Option (Nat × Nat)) (ps : List Poll) : ∀ (first req : Bool) (n k : Nat),
    ∃ m, (waitLoop lim first req n k ps).polls = n + m ∧ m ≤ ps.length ∧
      ((waitLoop lim first req n k ps).stop = .waiting → m = ps.length) := by
  induction ps with
  | nil => intro first req n k; cases first <;> exact ⟨0, by simp [waitLoop]⟩
  | cons a ps ih =>
    intro first req n k
    cases first with
    | true => exact ⟨0, by simp [waitLoop]⟩
    | false =>
      cases lim with
      | none =>
        simp only [waitLoop]
        obtain ⟨m, h1, h2, h3⟩ := ih a.there req (n + 1) k
        exact ⟨m + 1, by omega, by simp; omega, fun h => by have := h3 h; simp; omega⟩
      | some l =>
        obtain ⟨F, M⟩ := l
        simp only [waitLoop]
        split
        · exact ⟨1, by simp, by simp, by simp⟩
        · obtain ⟨m, h1, h2, h3⟩ := ih a.there (req || (!req && decide (a.forceTime > F))) (n + 1) (if (!req && decide (a.forceTime > F)) = true then k + 1 else k)
          exact ⟨m + 1, by omega, by simp; omega, fun h => by have := h3 h; simp; omega⟩

theorem waitLoop_forces (F M : Nat) (ps : List Poll) : ∀ (first req : Bool) (n k : Nat),
    ((waitLoop (some (F, M)) first req n k ps).forces = k ∧ (req = false → ∀ (i : Nat) (p : Poll), i + n < (waitLoop (some (F, M)) first req n k ps).polls → ps[i]? = some p → p.forceTime ≤ F)) ∨
    ((waitLoop (some (F, M)) first req n k ps).forces = k + 1 ∧ req = false ∧ ∃ (i : Nat) (p : Poll), i + n < (waitLoop (some (F, M)) first req n k ps).polls ∧ ps[i]? = some p ∧ F < p.forceTime) := by
  induction ps with
  | nil => intro first req n k; cases first <;> exact .inl ⟨by simp [waitLoop], by intro _ i p _ h; cases h⟩
  | cons a ps ih =>
    intro first req n k
    cases first with
    | true => exact .inl ⟨by simp [waitLoop], by intro _ i p h; simp [waitLoop] at h; omega⟩
    | false =>
      simp only [waitLoop]
      split
      · rename_i h
        by_cases hr : (!req && decide (a.forceTime > F)) = true
        · refine .inr ⟨by simp only [hr]; rfl, ?_, 0, a, by simp, rfl, ?_⟩
          · cases req <;> simp_all
          · simp at hr; exact hr.2
        · refine .inl ⟨by simp only [hr]; rfl, ?_⟩
          intro e i p hi hp
          have : i = 0 := by simp at hi; omega
          subst this
          cases hp
          subst e
          simp at hr
          exact hr
      · by_cases hr : (!req && decide (a.forceTime > F)) = true
        · obtain ⟨rfl, hf⟩ : req = false ∧ F < a.forceTime := by simpa using hr
          obtain ⟨m, hm, _⟩ := waitLoop_polls (some (F, M)) ps a.there true (n + 1) (k + 1)
          simp only [hr, Bool.or_true, if_true]
          rcases ih a.there true (n + 1) (k + 1) with ⟨h1, _⟩ | ⟨_, h2, _⟩
          · exact .inr ⟨h1, trivial, 0, a, by omega, rfl, hf⟩
          · cases h2
        · have hr' : (!req && decide (a.forceTime > F)) = false := by simpa using hr
          simp only [hr', Bool.or_false, Bool.false_eq_true, if_false]
          rcases ih a.there req (n + 1) k with ⟨h1, h2⟩ | ⟨h1, h2, i, p, h3, h4, h5⟩
          · refine .inl ⟨h1, ?_⟩
            intro e i p hi hp
            cases i with
            | zero => cases hp; subst e; simpa using hr'
            | succ i => exact h2 e i p (by omega) hp
          · exact .inr ⟨h1, h2, i + 1, p, by omega, h4, h5⟩

/-- **C89, how a wait ends.** The wait for a file ends well iff the first test finds it, or a poll finds it and the time was not up at that poll or an earlier one. -/
theorem c89_wait_found (F M : Nat) (first : Bool) (ps : List Poll) : (waitFile (some (F, M)) first ps).stop = .found ↔
    first = true ∨ ∃ (i : Nat) (p : Poll), ps[i]? = some p ∧ p.there = true ∧ ∀ (j : Nat) (q : Poll), j ≤ i → ps[j]? = some q → q.maxTime ≤ M :=
  waitLoop_found F M ps first false 0 0

/-- **C89, when a wait raises.** Iff the time is up at a poll and no poll before it found the file. Whether that poll itself found it does not matter. -/
theorem c89_wait_raises (F M : Nat) (first : Bool) (ps : List Poll) : (waitFile (some (F, M)) first ps).stop = .raised ↔
    first = false ∧ ∃ (i : Nat) (p : Poll), ps[i]? = some p ∧ M < p.maxTime ∧ ∀ (j : Nat) (q : Poll), j < i → ps[j]? = some q → q.there = false :=
  waitLoop_raised F M ps first false 0 0

/-- **C89, an exception although the file is there.** If the only test that finds the file is followed by one that finds the time up, the wait raises. -/
theorem c89_wait_raises_though_there (F M : Nat) (ps qs : List Poll) (p : Poll) (hps : ∀ q ∈ ps, q.there = false) (_ : p.there = true) (hp : M < p.maxTime) :
    (waitFile (some (F, M)) false (ps ++ p :: qs)).stop = .raised := by
  rw [c89_wait_raises]
  refine ⟨rfl, ps.length, p, by simp, hp, ?_⟩
  intro j q hj hq
  rw [List.getElem?_append_left hj] at hq
  exact hps q (List.mem_of_getElem? hq)

/-- **C89, one forced download.** A wait asks for a forced download at most once, and does so iff the limit for that is over at one of its polls. -/
theorem c89_wait_forces (F M : Nat) (first : Bool) (ps : List Poll) : (waitFile (some (F, M)) first ps).forces ≤ 1 ∧
    ((waitFile (some (F, M)) first ps).forces = 1 ↔
      ∃ (i : Nat) (p : Poll), i < (waitFile (some (F, M)) first ps).polls ∧ ps[i]? = some p ∧ F < p.forceTime) := by
  have h := waitLoop_forces F M ps first false 0 0
  unfold waitFile
  rcases h with ⟨h1, h2⟩ | ⟨h1, _, i, p, h3, h4, h5⟩
  · refine ⟨by omega, by intro e; omega, ?_⟩
    rintro ⟨i, p, h3, h4, h5⟩
    have := h2 rfl i p (by omega) h4
    omega
  · exact ⟨by omega, fun _ => ⟨i, p, by omega, h4, h5⟩, fun _ => by omega⟩

/-- **C89, a wait does not hang.** Once a poll finds the time up, the wait is over. -/
theorem c89_wait_ends (F M : Nat) (first : Bool) (ps : List Poll) (p : Poll) (hp : p ∈ ps) (ht : M < p.maxTime) :
    (waitFile (some (F, M)) first ps).stop ≠ .waiting := by
  intro hw
  obtain ⟨i, hi⟩ := List.getElem?_of_mem hp
  have hf : (waitFile (some (F, M)) first ps).stop ≠ .found := by rw [hw]; simp
  have hr : (waitFile (some (F, M)) first ps).stop ≠ .raised := by rw [hw]; simp
  rw [Ne, c89_wait_found] at hf
  rw [Ne, c89_wait_raises] at hr
  have hfirst : first = false := by cases first <;> simp_all
  have key : ∀ (n : Nat), n ≤ i → ∃ (m : Nat) (q : Poll), m < n ∧ ps[m]? = some q ∧ q.there = true ∧ (∀ (j : Nat) (r : Poll), j ≤ m → ps[j]? = some r → r.maxTime ≤ M) ∨
      ∀ (j : Nat) (q : Poll), j < n → ps[j]? = some q → q.there = false ∧ q.maxTime ≤ M := by
    intro n
    induction n with
    | zero => intro _; exact ⟨0, p, .inr (by intro j q hj; omega)⟩
    | succ n ih =>
      intro hn
      obtain ⟨m, q, h | h⟩ := ih (by omega)
      · exact absurd (.inr ⟨m, q, h.2.1, h.2.2.1, h.2.2.2⟩) hf
      · refine ⟨0, p, .inr ?_⟩
        intro j r hj hr'
        by_cases e : j < n
        · exact h j r e hr'
        · have : j = n := by omega
          subst this
          have hmax : r.maxTime ≤ M := by
            apply Nat.le_of_not_lt
            intro g
            exact hr ⟨hfirst, j, r, hr', g, fun l q hl hq => (h l q hl hq).1⟩
          refine ⟨?_, hmax⟩
          cases ht' : r.there with
          | false => rfl
          | true =>
            exfalso
            apply hf
            refine .inr ⟨j, r, hr', ht', ?_⟩
            intro l q hl hq
            by_cases e' : l < j
            · exact (h l q e' hq).2
            · have : l = j := by omega
              subst this
              rw [hr'] at hq
              cases hq
              exact hmax
  obtain ⟨m, q, h | h⟩ := key i (Nat.le_refl _)
  · exact hf (.inr ⟨m, q, h.2.1, h.2.2.1, h.2.2.2⟩)
  · exact hr ⟨hfirst, i, p, hi, ht, fun j q hj hq => (h j q hj hq).1⟩

/-- **C89, the bound.** If two polls are at most `d` apart, then no poll of a wait is later than `d` after the limit. -/
theorem c89_wait_bound (F M d : Nat) (first : Bool) (ps : List Poll) (h0 : ∀ p ∈ ps.head?, p.maxTime ≤ d)
    (hd : ∀ (i : Nat) (p q : Poll), ps[i]? = some p → ps[i + 1]? = some q → q.maxTime ≤ p.maxTime + d) (i : Nat) (p : Poll)
    (hi : i < (waitFile (some (F, M)) first ps).polls) (hp : ps[i]? = some p) : p.maxTime ≤ M + d := by
  have key : ∀ (ps : List Poll) (first req : Bool) (n k i : Nat) (p q : Poll), i + 1 + n < (waitLoop (some (F, M)) first req n k ps).polls → ps[i]? = some p → p.maxTime ≤ M := by
    intro ps
    induction ps with
    | nil => intro first req n k i p q _ h; cases h
    | cons a ps ih =>
      intro first req n k i p q hi hp
      cases first with
      | true => simp [waitLoop] at hi; omega
      | false =>
        simp only [waitLoop] at hi
        split at hi
        · simp at hi; omega
        · cases i with
          | zero => cases hp; omega
          | succ i => exact ih _ _ (n + 1) _ i p q (by rw [show i + 1 + (n + 1) = i + 1 + 1 + n by omega]; exact hi) hp
  cases i with
  | zero =>
    have := h0 p (by rw [List.head?_eq_getElem?]; exact hp)
    omega
  | succ i =>
    have hil : i < ps.length := by
      apply Nat.lt_of_not_le; intro g; rw [List.getElem?_eq_none (by omega)] at hp; cases hp
    have h1 := hd i ps[i] p (List.getElem?_eq_getElem hil) hp
    have h2 := key ps first false 0 0 i ps[i] p (by unfold waitFile at hi; omega) (List.getElem?_eq_getElem hil)
    omega

/-- **C89, `ParquetLoader` waits for ever.** Without limits a wait ends iff a test finds the file: if it never comes, the worker neither goes on nor raises. -/
theorem c89_parquet_hangs (ps : List Poll) (h : ∀ p ∈ ps, p.there = false) : waitFile none false ps = ⟨.waiting, ps.length, 0⟩ := by
  have key : ∀ (ps : List Poll) (req : Bool) (n k : Nat), (∀ p ∈ ps, p.there = false) → waitLoop none false req n k ps = ⟨.waiting, n + ps.length, k⟩ := by
    intro ps
    induction ps with
    | nil => intro req n k _; rfl
    | cons a ps ih =>
      intro req n k h
      rw [waitLoop, h a List.mem_cons_self, ih req (n + 1) k (fun p hp => h p (List.mem_cons_of_mem _ hp))]
      simp only [List.length_cons]
      congr 1
      omega
  rw [waitFile, key ps false 0 0 h]
  simp

/-- **C89, `TokensLoader` polls for a file that is there.** Its first test does not accept a file of exactly the size of the chunk, which is the size that every complete
chunk has: it sleeps once although all is there. -/
theorem c89_tokens_polls (fs : String → Option Bytes) (path : String) (size F M : Nat) (file : Bytes) (p : Poll) (ps : List Poll) (hf : fs path = some file)
    (hs : file.length = size) (hp : p.there = fileThere fs path size) (hm : p.maxTime ≤ M) (hforce : p.forceTime ≤ F) :
    waitFile (some (F, M)) (fileThere fs path size) (p :: ps) = ⟨.found, 0, 0⟩ ∧ waitFile (some (F, M)) (fileMore fs path size) (p :: ps) = ⟨.found, 1, 0⟩ := by
  have h1 : fileThere fs path size = true := by unfold fileThere; rw [hf]; simp [hs]
  have h2 : fileMore fs path size = false := by unfold fileMore; rw [hf]; simp [hs]
  rw [h1] at hp
  constructor
  · rw [h1]; rfl
  · rw [h2, waitFile, waitLoop]
    simp only [show ¬ p.forceTime > F by omega, show ¬ p.maxTime > M by omega, hp, decide_false, Bool.and_false, if_false, Bool.false_eq_true]
    cases ps <;> rfl

-- A file that comes at the third poll, and one that comes too late.
example : waitFile (some (30, 120)) false [⟨false, 10, 11⟩, ⟨false, 31, 32⟩, ⟨true, 60, 61⟩] = ⟨.found, 3, 1⟩ := by decide
example : waitFile (some (30, 120)) false [⟨false, 10, 11⟩, ⟨false, 31, 32⟩, ⟨false, 60, 61⟩, ⟨true, 119, 121⟩] = ⟨.raised, 4, 1⟩ := by decide
example : ∃ ps : List Poll, (∀ (i : Nat) (p q : Poll), ps[i]? = some p → ps[i + 1]? = some q → q.maxTime ≤ p.maxTime + 100) ∧
    (waitFile (some (30, 120)) false ps).polls = 2 ∧ (waitFile (some (30, 120)) false ps).stop = .raised := by
  refine ⟨[⟨false, 90, 90⟩, ⟨false, 180, 190⟩], ?_, by decide, by decide⟩
  intro i p q h1 h2
  match i with
  | 0 => cases h1; cases h2; decide
  | i + 1 => cases h2

end LitData.Props
