import Verif.Model.Profiling

/-! Property C94: profiling records what was asked for, and changes nothing else. -/

namespace LitData.Props
open LitData

/-- The number of fetches that returned a batch. -/
def okCount {α : Type} : List (Py α) → Nat
  | [] => 0
  | .ok _ :: rs => okCount rs + 1
  | .error _ :: rs => okCount rs

/-- The fetches that began when between `s` and `s + k` batches had been returned. -/
def tracedFetches {α : Type} (s k : Nat) (rs : List (Py α)) : List Nat :=
  (List.range rs.length).filter fun i => decide (s ≤ okCount (rs.take i) ∧ okCount (rs.take i) ≤ s + k)

theorem okCount_append {α : Type} (a b : List (Py α)) : okCount (a ++ b) = okCount a + okCount b := by
  induction a with
  | nil => simp [okCount]
  | cons r a ih => cases r <;> simp [okCount, ih] <;> omega

theorem okCount_le {α : Type} (a : List (Py α)) : okCount a ≤ a.length := by
  induction a with
  | nil => exact Nat.le_refl _
  | cons r a ih => cases r <;> simp [okCount] <;> omega

theorem okCount_all {α : Type} (xs : List α) : okCount (xs.map fun x => (.ok x : Py α)) = xs.length := by
  induction xs with
  | nil => rfl
  | cons x xs ih => simp [okCount, ih]

theorem traced_snoc {α : Type} (s k : Nat) (rs : List (Py α)) (r : Py α) :
    tracedFetches s k (rs ++ [r]) = tracedFetches s k rs ++ if s ≤ okCount rs ∧ okCount rs ≤ s + k then [rs.length] else [] := by
  unfold tracedFetches
  rw [List.length_append, List.length_singleton, List.range_succ, List.filter_append]
  congr 1
  · apply List.filter_congr
    intro i hi
    rw [List.mem_range] at hi
    rw [List.take_append_of_le_length (by omega)]
  · by_cases h : s ≤ okCount rs ∧ okCount rs ≤ s + k <;> simp [h]

theorem profFetches_append {α : Type} (cfg : ProfCfg) (pass : Nat) (a b : List (Py α)) (st : ProfState) :
    profFetches cfg pass st (a ++ b) = ((profFetches cfg pass (profFetches cfg pass st a).1 b).1, (profFetches cfg pass st a).2 ++ (profFetches cfg pass (profFetches cfg pass st a).1 b).2) := by
  induction a generalizing st with
  | nil => rfl
  | cons r a ih => simp [profFetches, ih]

theorem profFetch_same {α : Type} (cfg : ProfCfg) (pass : Nat) (st : ProfState) (r : Py α) : (profFetch cfg pass st r).2 = r := by
  unfold profFetch
  split
  · cases r <;> rfl
  · rfl

theorem profFetches_same {α : Type} (cfg : ProfCfg) (pass : Nat) (rs : List (Py α)) (st : ProfState) : (profFetches cfg pass st rs).2 = rs := by
  induction rs generalizing st with
  | nil => rfl
  | cons r rs ih => simp [profFetches, ih, profFetch_same]

/-- A worker that is not the first is not profiled. -/
theorem other_fetches {α : Type} (cfg : ProfCfg) (pass : Nat) (rs : List (Py α)) (st : ProfState) (h1 : st.wrapped = false) :
    (profFetches cfg pass st rs).1.file = st.file := by
  induction rs generalizing st with
  | nil => rfl
  | cons r rs ih =>
    simp only [profFetches, profFetch, h1, Bool.false_eq_true, if_false]
    rw [ih (recordFetch st) h1]
    rfl

theorem other_worker {α : Type} (cfg : ProfCfg) (w pass : Nat) (hw : w ≠ 0) (file : Option Trace) (rs : List (Py α)) : (profWorker cfg w pass file rs).1 = file := by
  have hb : (w == 0) = false := by simp [hw]
  have h := other_fetches cfg pass rs (profStart cfg w file) (by simp [profStart, hb])
  simp only [profWorker, profEnd, hb, Bool.false_and, Bool.false_eq_true, if_false]
  rw [h]
  simp [profStart, hb]

/-- The state of the first worker after the fetches `rs`. -/
structure ProfInv {α : Type} (s k pass : Nat) (file : Option Trace) (rs : List (Py α)) (st : ProfState) : Prop where
  calls : st.calls = rs.length
  some_traced : s < okCount rs → tracedFetches s k rs ≠ []
  going : okCount rs ≤ s + k → st.wrapped = true ∧ st.counter = okCount rs ∧
    st.tracer = (if s = 0 ∨ tracedFetches s k rs ≠ [] then some ⟨true, tracedFetches s k rs⟩ else none) ∧
    st.file = if s = 0 ∨ tracedFetches s k rs ≠ [] then none else file
  ended : s + k < okCount rs → st.wrapped = false ∧ st.tracer = some ⟨false, tracedFetches s k rs⟩ ∧ st.file = some (pass, tracedFetches s k rs)

theorem prof_inv {α : Type} (cfg : ProfCfg) (s k pass : Nat) (hs : cfg.skip = s) (hk : cfg.profile.num = k) (file : Option Trace) (n : Nat) :
    ∀ rs : List (Py α), rs.length = n → ProfInv s k pass file rs (profFetches cfg pass (profStart cfg 0 file) rs).1 := by
  induction n with
  | zero =>
    intro rs hl
    have : rs = [] := List.length_eq_zero_iff.1 hl
    subst this
    refine ⟨rfl, fun h => by simp [okCount] at h, fun _ => ?_, fun h => by simp [okCount] at h⟩
    by_cases h0 : s = 0
    · subst h0; simp [profFetches, profStart, hs, tracedFetches, okCount]
    · have : ((s : Int) == 0) = false := by simp; omega
      simp [profFetches, profStart, hs, tracedFetches, okCount, h0, this]
  | succ n ih =>
    intro rs hl
    obtain ⟨a, r, rfl⟩ : ∃ a r, rs = a ++ [r] := by
      rcases List.eq_nil_or_concat rs with h | ⟨a, r, h⟩
      · subst h; cases hl
      · exact ⟨a, r, by simpa using h⟩
    have hla : a.length = n := by simpa using hl
    obtain ⟨i1, i2, i3, i4⟩ := ih a hla
    rw [profFetches_append]
    simp only [profFetches]
    generalize (profFetches cfg pass (profStart cfg 0 file) a).1 = st at *
    obtain ⟨calls, counter, tracer, wrapped, fl⟩ := st
    simp only at i1 i3 i4
    subst i1
    have hcount : okCount (a ++ [r]) = okCount a + okCount [r] := okCount_append a [r]
    have hsn := traced_snoc s k a r
    by_cases hgo : okCount a ≤ s + k
    · obtain ⟨rfl, rfl, h3, h4⟩ := i3 hgo
      -- the state after the fetch has begun
      have hbegin : recordFetch (wrapStart cfg ⟨a.length, okCount a, tracer, true, fl⟩) =
          ⟨a.length + 1, okCount a, if s = 0 ∨ tracedFetches s k (a ++ [r]) ≠ [] then some ⟨true, tracedFetches s k (a ++ [r])⟩ else none, true,
            if s = 0 ∨ tracedFetches s k (a ++ [r]) ≠ [] then none else file⟩ := by
        by_cases hle : s ≤ okCount a
        · rw [if_pos ⟨hle, hgo⟩] at hsn
          rw [hsn, if_pos (.inr (by simp)), if_pos (.inr (by simp))]
          by_cases hst : s = 0 ∨ tracedFetches s k a ≠ []
          · rw [if_pos hst] at h3 h4
            subst h3 h4
            simp [wrapStart, recordFetch]
          · rw [if_neg hst] at h3 h4
            subst h3 h4
            have hne : s ≠ 0 := fun h => hst (.inl h)
            have hnil : tracedFetches s k a = [] := by
              by_cases h : tracedFetches s k a = []
              · exact h
              · exact absurd (.inr h) hst
            have hc : okCount a = s := by
              by_cases h : s < okCount a
              · exact absurd hnil (i2 h)
              · omega
            have hcond : (decide (cfg.skip > 0) && cfg.skip == (okCount a : Int) && (none : Option Tracer).isNone) = true := by
              rw [hs, hc]
              simp
              omega
            simp only [wrapStart]
            rw [if_pos (by simpa using hcond)]
            simp [recordFetch, hnil]
        · rw [if_neg (fun h => hle h.1), List.append_nil] at hsn
          rw [hsn]
          have hcond : ¬ ((decide (cfg.skip > 0) && cfg.skip == (okCount a : Int) && tracer.isNone) = true) := by
            rw [hs]
            simp
            omega
          simp only [wrapStart]
          rw [if_neg hcond]
          simp only [recordFetch, h3, h4]
          split <;> rename_i hst
          · have hz : s ≠ 0 := by omega
            have hfirst : tracedFetches s k a ≠ [] := hst.resolve_left hz
            exfalso
            -- nothing is recorded before `s` batches have been returned
            apply hfirst
            unfold tracedFetches
            rw [List.filter_eq_nil_iff]
            intro i hi
            have hle' : okCount (a.take i) ≤ okCount a := by
              have := okCount_append (a.take i) (a.drop i)
              rw [List.take_append_drop] at this
              omega
            simp
            omega
          · rfl
      have hst2 : s < okCount (a ++ [r]) → tracedFetches s k (a ++ [r]) ≠ [] := by
        intro h
        rw [hsn]
        by_cases hh : s < okCount a
        · intro e
          exact i2 hh (List.append_eq_nil_iff.1 e).1
        · have : okCount [r] ≤ 1 := okCount_le [r]
          rw [if_pos (by omega)]
          simp
      cases r with
      | error e =>
        have hc : okCount (a ++ [(.error e : Py α)]) = okCount a := by rw [hcount]; rfl
        simp only [profFetch, if_true, hbegin]
        refine ⟨by simp, hst2, fun _ => ⟨rfl, hc.symm, rfl, rfl⟩, fun h => by omega⟩
      | ok x =>
        have hc : okCount (a ++ [(.ok x : Py α)]) = okCount a + 1 := by rw [hcount]; rfl
        simp only [profFetch, if_true, hbegin]
        by_cases hlast : okCount a = s + k
        · have htr : tracedFetches s k (a ++ [.ok x]) ≠ [] := hst2 (by omega)
          have e : (s = 0 ∨ tracedFetches s k (a ++ [(.ok x : Py α)]) ≠ []) := .inr htr
          simp only [if_pos e, wrapStop]
          rw [if_pos (by rw [hk, hs, hlast]; simp; omega)]
          exact ⟨by simp, hst2, fun h => by omega, fun _ => ⟨rfl, rfl, rfl⟩⟩
        · have hno : ¬ ((true && ((okCount a : Int) == cfg.profile.num + cfg.skip)) = true) := by
            rw [hk, hs]
            simp
            omega
          have hsame : wrapStop cfg pass ⟨a.length + 1, okCount a, if s = 0 ∨ tracedFetches s k (a ++ [(.ok x : Py α)]) ≠ [] then some ⟨true, tracedFetches s k (a ++ [.ok x])⟩ else none, true,
              if s = 0 ∨ tracedFetches s k (a ++ [(.ok x : Py α)]) ≠ [] then none else file⟩ = ⟨a.length + 1, okCount a, if s = 0 ∨ tracedFetches s k (a ++ [(.ok x : Py α)]) ≠ [] then some ⟨true, tracedFetches s k (a ++ [.ok x])⟩ else none, true,
              if s = 0 ∨ tracedFetches s k (a ++ [(.ok x : Py α)]) ≠ [] then none else file⟩ := by
            by_cases e : s = 0 ∨ tracedFetches s k (a ++ [(.ok x : Py α)]) ≠ []
            · simp only [if_pos e, wrapStop]
              rw [if_neg hno]
            · simp only [if_neg e, wrapStop]
          rw [hsame]
          exact ⟨by simp, hst2, fun _ => ⟨rfl, hc.symm, rfl, rfl⟩, fun h => by omega⟩
    · obtain ⟨rfl, rfl, rfl⟩ := i4 (by omega)
      rw [if_neg (fun h => hgo h.2), List.append_nil] at hsn
      refine ⟨by simp [profFetch, recordFetch], fun _ => by rw [hsn]; exact i2 (by omega), fun h => by omega, fun _ => ?_⟩
      rw [hsn]
      simp [profFetch, recordFetch]

/-- **C94, no batch is changed.** Whatever is profiled, and however many data loaders the process has used before, every worker gets from its fetches what they give. -/
theorem c94_batches {α : Type} (p : LoaderProc) (ls : List (LoaderPass α)) : (loaderPasses p ls).2 = ls.map LoaderPass.fetches := by
  have hw : ∀ (fs : List (List (Py α))) (p : LoaderProc) (w : Nat), (patchedWorkers p w fs).2 = fs := by
    intro fs
    induction fs with
    | nil => intro p w; rfl
    | cons f fs ih =>
      intro p w
      simp only [patchedWorkers, ih]
      congr 1
      unfold patchedWorker
      split
      · rfl
      · simp [profWorker, profFetches_same]
      · split <;> rfl
  induction ls generalizing p with
  | nil => rfl
  | cons l ls ih => simp [loaderPasses, ih, loaderPass, hw]

/-- **C94, what is recorded.** With `profile_batches=k` and `profile_skip_batches=s`, the first worker records exactly the fetches that begin when between `s` and `s + k`
batches have been returned, and saves them as soon as it has returned more than `s + k`. If it returns fewer, nothing is saved, and the trace of an earlier pass is removed
as soon as a fetch is recorded, and at once if `s` is 0. The other workers record nothing. -/
theorem c94_recorded {α : Type} (s k pass : Nat) (dir : String) (file : Option Trace) (rs : List (Py α)) :
    (s + k < okCount rs → (profWorker ⟨.int k, s, dir⟩ 0 pass file rs).1 = some (pass, tracedFetches s k rs)) ∧
    (okCount rs ≤ s + k → (s = 0 ∨ s < okCount rs) → (profWorker ⟨.int k, s, dir⟩ 0 pass file rs).1 = none) ∧
    (okCount rs < s → (profWorker ⟨.int k, s, dir⟩ 0 pass file rs).1 = file) ∧
    (okCount rs ≤ s + k → (profWorker ⟨.int k, s, dir⟩ 0 pass file rs).1 = if s = 0 ∨ tracedFetches s k rs ≠ [] then none else file) ∧
    ∀ w, w ≠ 0 → (profWorker ⟨.int k, s, dir⟩ w pass file rs).1 = file := by
  obtain ⟨_, i2, i3, i4⟩ := prof_inv ⟨.int k, s, dir⟩ s k pass rfl rfl file rs.length rs rfl
  have he : (profWorker ⟨.int k, s, dir⟩ 0 pass file rs).1 = (profFetches ⟨.int k, s, dir⟩ pass (profStart ⟨.int k, s, dir⟩ 0 file) rs).1.file := by
    simp [profWorker, profEnd, ProfArg.isBool]
  rw [he]
  refine ⟨fun h => (i4 h).2.2, fun h h' => ?_, fun h => ?_, fun h => (i3 h).2.2.2, fun w hw => other_worker _ w pass hw file rs⟩
  · rw [(i3 h).2.2.2, if_pos (h'.imp id i2)]
  · rw [(i3 (by omega)).2.2.2, if_neg]
    rintro (h0 | h0)
    · omega
    · apply h0
      unfold tracedFetches
      rw [List.filter_eq_nil_iff]
      intro i hi
      have hle' : okCount (rs.take i) ≤ okCount rs := by
        have := okCount_append (rs.take i) (rs.drop i)
        rw [List.take_append_drop] at this
        omega
      simp
      omega

theorem traced_all {α : Type} (s k : Nat) (xs : List α) (h : s + k < xs.length) : tracedFetches s k (xs.map fun x => (.ok x : Py α)) = List.range' s (k + 1) := by
  have hf : ∀ n, n ≤ xs.length → (List.range n).filter (fun i => decide (s ≤ okCount ((xs.map fun x => (.ok x : Py α)).take i) ∧ okCount ((xs.map fun x => (.ok x : Py α)).take i) ≤ s + k)) =
      List.range' s (min (n - s) (k + 1)) := by
    intro n
    induction n with
    | zero => intro _; simp
    | succ n ih =>
      intro hn
      have hc : okCount ((xs.map fun x => (.ok x : Py α)).take n) = n := by
        rw [← List.map_take, okCount_all, List.length_take]
        omega
      rw [List.range_succ, List.filter_append, ih (by omega)]
      by_cases h1 : s ≤ n ∧ n ≤ s + k
      · have e1 : min (n - s) (k + 1) = n - s := by omega
        have e2 : min (n + 1 - s) (k + 1) = n - s + 1 := by omega
        rw [e1, e2, List.range'_concat]
        have : s + (n - s) = n := by omega
        simp only [List.filter_cons, List.filter_nil, hc]
        rw [if_pos (by simpa using h1), Nat.one_mul, this]
      · have e : min (n + 1 - s) (k + 1) = min (n - s) (k + 1) := by omega
        rw [e]
        simp only [List.filter_cons, List.filter_nil, hc]
        rw [if_neg (by simpa using h1), List.append_nil]
  have := hf xs.length (Nat.le_refl _)
  unfold tracedFetches
  rw [List.length_map, this]
  congr 1
  omega

/-- **C94, the code violates it: one batch too many.** When no fetch fails and the first worker gives more than `s + k` batches, `k + 1` of them are in the trace. With
exactly `s + k` batches there is no trace at all. -/
theorem c94_one_too_many {α : Type} (s k pass : Nat) (hk : 0 < k) (dir : String) (file : Option Trace) (xs : List α) :
    (s + k < xs.length → ∃ l, (profWorker ⟨.int k, s, dir⟩ 0 pass file (xs.map .ok)).1 = some (pass, l) ∧ l = List.range' s (k + 1) ∧ l.length = k + 1) ∧
    (xs.length = s + k → (profWorker ⟨.int k, s, dir⟩ 0 pass file (xs.map (fun x => (.ok x : Py α)))).1 = none) := by
  obtain ⟨h1, h2, _⟩ := c94_recorded s k pass dir file (xs.map fun x => (.ok x : Py α))
  rw [okCount_all] at h1 h2
  exact ⟨fun h => ⟨_, h1 h, traced_all s k xs h, by rw [traced_all s k xs h]; simp⟩, fun h => h2 (by omega) (by omega)⟩

/-- **C94, the code violates it: `profile_batches=True` records two batches.** Booleans are integers in Python, so `True` counts as one batch, and two are recorded;
a pass of one batch is recorded without `profile_skip_batches` only. -/
theorem c94_true {α : Type} (s pass : Nat) (dir : String) (file : Option Trace) (xs : List α) :
    (s + 1 < xs.length → (profWorker ⟨.bool true, s, dir⟩ 0 pass file (xs.map fun x => (.ok x : Py α))).1 = some (pass, [s, s + 1])) ∧
    (xs.length ≤ 1 → (profWorker ⟨.bool true, 0, dir⟩ 0 pass file (xs.map fun x => (.ok x : Py α))).1 = some (pass, List.range xs.length)) ∧
    (0 < s → xs.length = s + 1 → (profWorker ⟨.bool true, s, dir⟩ 0 pass file (xs.map fun x => (.ok x : Py α))).1 = none) := by
  have hinv := fun (t : Nat) => prof_inv ⟨.bool true, t, dir⟩ t 1 pass rfl rfl file _ (xs.map fun x => (.ok x : Py α)) rfl
  refine ⟨fun h => ?_, fun h => ?_, fun h0 h => ?_⟩
  · obtain ⟨_, _, _, i4⟩ := hinv s
    rw [okCount_all] at i4
    obtain ⟨_, a2, a3⟩ := i4 h
    rw [traced_all s 1 xs h] at a2 a3
    simp only [profWorker, profEnd]
    split
    · simp only [a2]
      rfl
    · simp only [a3]
      rfl
  · obtain ⟨_, _, i3, _⟩ := hinv 0
    rw [okCount_all] at i3
    obtain ⟨_, _, a3, _⟩ := i3 (by omega)
    rw [if_pos (.inl rfl)] at a3
    simp only [profWorker, profEnd]
    rw [if_pos (by rfl)]
    simp only [Int.natCast_zero] at a3
    simp only [a3]
    have : tracedFetches 0 1 (xs.map fun x => (.ok x : Py α)) = List.range xs.length := by
      unfold tracedFetches
      rw [List.length_map, List.filter_eq_self]
      intro i hi
      have hle' : okCount ((xs.map fun x => (.ok x : Py α)).take i) ≤ xs.length := by
        rw [← List.map_take, okCount_all, List.length_take]
        omega
      simp
      omega
    rw [this]
  · obtain ⟨_, i2, i3, _⟩ := hinv s
    rw [okCount_all] at i2 i3
    obtain ⟨_, _, _, a4⟩ := i3 (by omega)
    rw [if_pos (.inr (i2 (by omega)))] at a4
    have hb : ((s : Int) == 0) = false := by simp; omega
    simp only [profWorker, profEnd, hb, Bool.and_false, Bool.false_and, Bool.false_eq_true, if_false]
    exact a4

theorem workers_patch {α : Type} (fs : List (List (Py α))) : ∀ (p : LoaderProc) (w : Nat), (patchedWorkers p w fs).1.patch = p.patch ∧ (patchedWorkers p w fs).1.passes = p.passes ∧
    (patchedWorkers p w fs).1.rank = p.rank ∧ (patchedWorkers p w fs).1.viz = p.viz ∧ (patchedWorkers p w fs).1.cwd = p.cwd := by
  induction fs with
  | nil => intro p w; exact ⟨rfl, rfl, rfl, rfl, rfl⟩
  | cons f fs ih =>
    intro p w
    have h1 : (patchedWorker p w f).1.patch = p.patch ∧ (patchedWorker p w f).1.passes = p.passes ∧ (patchedWorker p w f).1.rank = p.rank ∧ (patchedWorker p w f).1.viz = p.viz ∧
        (patchedWorker p w f).1.cwd = p.cwd := by
      unfold patchedWorker
      split
      · exact ⟨rfl, rfl, rfl, rfl, rfl⟩
      · exact ⟨rfl, rfl, rfl, rfl, rfl⟩
      · split <;> exact ⟨rfl, rfl, rfl, rfl, rfl⟩
    obtain ⟨a, b, c, d, e⟩ := ih (patchedWorker p w f).1 (w + 1)
    simp only [patchedWorkers]
    exact ⟨a.trans h1.1, b.trans h1.2.1, c.trans h1.2.2.1, d.trans h1.2.2.2.1, e.trans h1.2.2.2.2⟩

/-- Workers after the first leave all trace files as they are. -/
theorem later_workers {α : Type} (fs : List (List (Py α))) : ∀ (p : LoaderProc) (w : Nat), w ≠ 0 → (patchedWorkers p w fs).1.files = p.files := by
  induction fs with
  | nil => intro p w _; rfl
  | cons f fs ih =>
    intro p w hw
    simp only [patchedWorkers]
    rw [ih _ (w + 1) (by omega)]
    unfold patchedWorker
    split
    · rfl
    · simp only [other_worker _ w _ hw]
      funext d n
      unfold setTrace
      split
      · rename_i h; rw [h.1, h.2]
      · rfl
    · rw [if_neg (by simp [hw])]

/-- **C94, only when asked for.** As long as the process has used no loader that profiles and no `CacheDataLoader`, no trace file is changed; nor is it on ranks other than
the first, whatever its streaming loaders are asked for. -/
theorem c94_only_when_asked {α : Type} (p : LoaderProc) (hp : p.patch = .torch) (ls : List (LoaderPass α))
    (hl : ∀ l ∈ ls, (∃ fs, l = .plain fs) ∨ ∃ a s d fs, l = .streaming a s d fs ∧ (a.truthy = false ∨ p.rank ≠ 0)) :
    (loaderPasses p ls).1.files = p.files := by
  have hstill : ∀ (fs : List (List (Py α))) (p : LoaderProc) (w : Nat), p.patch = .torch → (patchedWorkers p w fs).1 = p := by
    intro fs
    induction fs with
    | nil => intro p w _; rfl
    | cons f fs ih =>
      intro p w h
      have e : (patchedWorker p w f).1 = p := by unfold patchedWorker; rw [h]
      simp only [patchedWorkers, e]
      exact ih p (w + 1) h
  induction ls generalizing p with
  | nil => rfl
  | cons l ls ih =>
    have hnew : newPatch p l = .torch := by
      rcases hl l List.mem_cons_self with ⟨fs, rfl⟩ | ⟨a, s, d, fs, rfl, h⟩
      · exact hp
      · have hn : ¬ ((a.truthy && p.rank == 0 && p.viz) = true) := by rcases h with h | h <;> simp [h]
        exact (if_neg hn).trans hp
    have e : (loaderPass p l).1 = { p with patch := .torch, passes := p.passes + 1 } := by
      simp only [loaderPass]
      rw [hstill _ _ _ (by exact hnew), hnew]
    simp only [loaderPasses, e]
    exact ih _ rfl (fun l' h' => hl l' (List.mem_cons_of_mem _ h'))

/-- **C94, the code violates it: later loaders are profiled too.** Once a loader was profiled, every later pass over a streaming loader that is not, or over any data loader
of PyTorch, is profiled with the settings of the first: its first worker writes `result.json` in that directory. -/
theorem c94_patch_stays {α : Type} (p : LoaderProc) (cfg : ProfCfg) (hp : p.patch = .profile cfg) (l : LoaderPass α) (f : List (Py α)) (rest : List (List (Py α)))
    (hf : l.fetches = f :: rest) (hl : (∃ fs, l = .plain fs) ∨ ∃ a s d fs, l = .streaming a s d fs ∧ a.truthy = false) :
    (loaderPass p l).1.patch = .profile cfg ∧
    (loaderPass p l).1.files cfg.dir "result.json" = (profWorker cfg 0 p.passes (p.files cfg.dir "result.json") f).1 := by
  have hnew : newPatch p l = .profile cfg := by
    rcases hl with ⟨fs, rfl⟩ | ⟨a, s, d, fs, rfl, h⟩
    · exact hp
    · have hn : ¬ ((a.truthy && p.rank == 0 && p.viz) = true) := by simp [h]
      exact (if_neg hn).trans hp
  have e : ({ p with patch := newPatch p l } : LoaderProc) = p := by rw [hnew, ← hp]
  simp only [loaderPass, hf, e]
  refine ⟨(workers_patch _ p 0).1.trans hp, ?_⟩
  simp only [patchedWorkers]
  rw [later_workers _ _ (0 + 1) (by decide)]
  unfold patchedWorker
  rw [hp]
  simp [setTrace]

/-- **C94, the code violates it: the trace is lost.** A loader with `profile_batches=k` has written its trace. After any later passes over loaders that are not to be
profiled, and of which the first worker of the last one gives at most `k` batches, the trace is gone. -/
theorem c94_trace_lost {α : Type} (p : LoaderProc) (hr : p.rank = 0) (hv : p.viz = true) (k : Nat) (hk : 0 < k) (dir : String) (f : List (Py α)) (rest : List (List (Py α)))
    (hlong : k < okCount f) (ls : List (LoaderPass α)) (l : LoaderPass α)
    (hl : ∀ l' ∈ ls ++ [l], l'.fetches ≠ [] ∧ ((∃ fs, l' = .plain fs) ∨ ∃ a s d fs, l' = .streaming a s d fs ∧ a.truthy = false))
    (g : List (Py α)) (rest' : List (List (Py α))) (hg : l.fetches = g :: rest') (hshort : okCount g ≤ k) :
    (loaderPass p (.streaming (.int k) 0 dir (f :: rest))).1.files dir "result.json" = some (p.passes, tracedFetches 0 k f) ∧
    (loaderPasses p (.streaming (.int k) 0 dir (f :: rest) :: (ls ++ [l]))).1.files dir "result.json" = none := by
  have ht : (ProfArg.int (k : Int)).truthy = true := by
    simp [ProfArg.truthy, ProfArg.num]
    omega
  have hnew : newPatch p (.streaming (.int k) 0 dir (f :: rest)) = .profile ⟨.int k, 0, dir⟩ := by
    have hn : ((ProfArg.int (k : Int)).truthy && p.rank == 0 && p.viz) = true := by simp [ht, hr, hv]
    exact if_pos hn
  have hpatch : (loaderPass p (.streaming (.int k) 0 dir (f :: rest))).1.patch = .profile ⟨.int k, 0, dir⟩ := by
    simp only [loaderPass]
    rw [(workers_patch _ _ 0).1, hnew]
  constructor
  · have hrec := (c94_recorded 0 k p.passes dir (p.files dir "result.json") f).1 (by omega)
    simp only [loaderPass, LoaderPass.fetches, patchedWorkers]
    rw [later_workers _ _ (0 + 1) (by decide)]
    unfold patchedWorker
    simp only [hnew, setTrace]
    simpa using hrec
  · simp only [loaderPasses]
    generalize (loaderPass p (.streaming (.int k) 0 dir (f :: rest))).1 = q at hpatch
    induction ls generalizing q with
    | nil =>
      simp only [List.nil_append, loaderPasses]
      rw [(c94_patch_stays q _ hpatch l g rest' hg (hl l (by simp)).2).2]
      exact (c94_recorded 0 k q.passes dir _ g).2.1 (by omega) (.inl rfl)
    | cons l' ls ih =>
      simp only [List.cons_append, loaderPasses]
      obtain ⟨hne, hk'⟩ := hl l' (by simp)
      obtain ⟨f', rest'', hf'⟩ := List.exists_cons_of_ne_nil hne
      exact ih (fun x hx => hl x (by simp only [List.cons_append, List.mem_cons]; exact .inr hx)) _ (c94_patch_stays q _ hpatch l' f' rest'' hf' hk').1

/-- A `CacheDataLoader` that does not profile ends it: until another loader is profiled, no trace file is changed any more. -/
theorem c94_caching_ends {α : Type} (p : LoaderProc) (fs : List (List (Py α))) (ls : List (LoaderPass α))
    (hl : ∀ l ∈ ls, (∃ fs, l = .plain fs) ∨ (∃ fs, l = .caching false fs) ∨ ∃ a s d fs, l = .streaming a s d fs ∧ a.truthy = false) :
    (loaderPasses p (.caching false fs :: ls)).1.files = p.files := by
  have hstill : ∀ (fs : List (List (Py α))) (p : LoaderProc) (w r : Nat), p.patch = .cache r false → (patchedWorkers p w fs).1 = p := by
    intro fs
    induction fs with
    | nil => intro p w r _; rfl
    | cons f fs ih =>
      intro p w r h
      have e : (patchedWorker p w f).1 = p := by
        unfold patchedWorker
        rw [h]
        simp
      simp only [patchedWorkers, e]
      exact ih p (w + 1) r h
  have hone : ∀ (p : LoaderProc) (l : LoaderPass α) (r : Nat), newPatch p l = .cache r false →
      (loaderPass p l).1.patch = .cache r false ∧ (loaderPass p l).1.files = p.files := by
    intro p l r h
    simp only [loaderPass]
    rw [hstill _ _ _ r (by exact h)]
    exact ⟨h, rfl⟩
  obtain ⟨h1, h2⟩ := hone p (.caching false fs) p.rank rfl
  simp only [loaderPasses]
  rw [← h2]
  generalize (loaderPass p (.caching false fs)).1 = q at h1
  clear h2
  generalize p.rank = r at h1
  induction ls generalizing q r with
  | nil => rfl
  | cons l ls ih =>
    have hnew : ∃ r', newPatch q l = .cache r' false := by
      rcases hl l List.mem_cons_self with ⟨fs, rfl⟩ | ⟨fs, rfl⟩ | ⟨a, s, d, fs, rfl, h⟩
      · exact ⟨r, h1⟩
      · exact ⟨q.rank, rfl⟩
      · refine ⟨r, ?_⟩
        have hn : ¬ ((a.truthy && q.rank == 0 && q.viz) = true) := by simp [h]
        exact (if_neg hn).trans h1
    obtain ⟨r', hr'⟩ := hnew
    obtain ⟨a1, a2⟩ := hone q l r' hr'
    simp only [loaderPasses]
    rw [ih (fun x hx => hl x (List.mem_cons_of_mem _ hx)) _ r' a1, a2]

/-- **C94, when it is refused.** Profiling needs VizTracer and workers, and nothing else is refused. -/
theorem c94_refused (viz : Bool) (profile : ProfArg) (numWorkers : Nat) :
    profCheck viz profile numWorkers = .ok () ↔ profile = .bool false ∨ profile = .int 0 ∨ viz = true ∧ 0 < numWorkers := by
  have ht : profile.truthy = false ↔ profile = .bool false ∨ profile = .int 0 := by
    cases profile with
    | bool b => cases b <;> simp [ProfArg.truthy, ProfArg.num]
    | int k => by_cases h : k = 0 <;> simp [ProfArg.truthy, ProfArg.num, h]
  rw [← or_assoc, ← ht]
  unfold profCheck
  cases profile.truthy <;> cases viz <;> cases numWorkers <;> simp

/-- Six batches, the third of which fails: after one batch is skipped, two are asked for, and the fetches 1, 2 (failing), 3 and 4 are recorded. -/
example : (profWorker ⟨.int 2, 1, "d"⟩ 0 7 none [.ok 10, .ok 11, .error .valueError, .ok 12, .ok 13, .ok 14]).1 = some (7, [1, 2, 3, 4]) := by rfl

/-- A profiled loader with five batches, and then one with two that is not: the trace has four batches instead of three, and then it is gone. -/
example := c94_trace_lost (α := Nat) ⟨0, true, "cwd", .torch, 0, fun _ _ => none⟩ rfl rfl 3 (by decide) "d" [.ok 1, .ok 2, .ok 3, .ok 4, .ok 5] [[.ok 6]] (by decide) [.plain [[.ok 1]]]
  (.streaming (.bool false) 0 "e" [[.ok 1, .ok 2]]) (by
    intro l h
    simp only [List.cons_append, List.nil_append, List.mem_cons, List.not_mem_nil, or_false] at h
    rcases h with rfl | rfl
    · exact ⟨by simp [LoaderPass.fetches], .inl ⟨_, rfl⟩⟩
    · exact ⟨by simp [LoaderPass.fetches], .inr ⟨_, _, _, _, rfl, rfl⟩⟩) [.ok 1, .ok 2] [] rfl (by decide)

example := c94_only_when_asked (α := Nat) ⟨1, true, "cwd", .torch, 0, fun _ _ => some (0, [1])⟩ rfl [.plain [[.ok 1]], .streaming (.int 2) 0 "d" [[.ok 1, .ok 2, .ok 3]]] (by
    intro l h
    simp only [List.mem_cons, List.not_mem_nil, or_false] at h
    rcases h with rfl | rfl
    · exact .inl ⟨_, rfl⟩
    · exact .inr ⟨_, _, _, _, rfl, .inr (by decide)⟩)

end LitData.Props
