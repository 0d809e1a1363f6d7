import Verif.Props.Loader
import Verif.Model.ResumedLoop

/-!
C98: breaking off a pass over a loader that was resumed. `steps` are what a script does in a pass, `true` for a batch and `false` for a saved state.
-/

namespace LitData.Props
open LitData Spec

/-- How many batches a script has taken since it last saved a state. -/
def sinceSave (steps : List Bool) : Nat := (steps.reverse.takeWhile fun b => b).length

theorem sinceSave_le (steps : List Bool) : sinceSave steps ≤ steps.count true := by
  unfold sinceSave
  rw [← List.count_reverse]
  generalize steps.reverse = r
  induction r with
  | nil => simp
  | cons b r ih => cases b <;> simp [List.takeWhile_cons] <;> omega

/-- What the steps of a pass do. -/
theorem steps_spec (nw bs : Nat) (s : ScriptState) (steps : List Bool) :
    let t := steps.foldl (passStep nw bs) s
    t.loader = times (loaderBatch nw bs) (steps.count true) s.loader ∧
    t.kept = s.kept.map (fun y => if false ∈ steps then s.loader.yielded + (steps.count true - sinceSave steps) * bs else y) ∧
    t.start = s.start ∧ t.worker = s.worker ∧ t.given = s.given + steps.count true := by
  intro t
  obtain ⟨r, hr⟩ : ∃ r, steps = r.reverse := ⟨steps.reverse, by simp⟩
  revert t
  subst hr
  induction r with
  | nil => simp [times, sinceSave]
  | cons b r ih =>
    intro t
    obtain ⟨h1, h2, h3, h4, h5⟩ := ih
    have ht : t = passStep nw bs (r.reverse.foldl (passStep nw bs) s) b := by
      show (b :: r).reverse.foldl _ _ = _
      rw [List.reverse_cons, List.foldl_append]
      rfl
    rw [ht]
    have hle := sinceSave_le r.reverse
    cases b with
    | true =>
      have hc : (true :: r).reverse.count true = r.reverse.count true + 1 := by simp
      have hu : sinceSave (true :: r).reverse = sinceSave r.reverse + 1 := by simp [sinceSave]
      have hm : (false ∈ (true :: r).reverse) ↔ false ∈ r.reverse := by simp
      refine ⟨?_, ?_, h3, h4, ?_⟩
      · rw [hc]
        show loaderBatch nw bs _ = _
        rw [h1, batches_state, batches_state]
        generalize r.reverse.count true = c
        simp only [loaderBatch, if_neg (show ¬ c + 1 = 0 by omega), LoaderState.mk.injEq, true_and, Nat.add_sub_cancel, Nat.add_mul, Nat.one_mul]
        simp [Nat.add_assoc]
      · show ScriptState.kept (List.foldl _ _ _) = _
        rw [h2, hc, hu]
        congr 1
        funext y
        rw [Nat.add_sub_add_right]
        simp only [hm]
      · show ScriptState.given (List.foldl _ _ _) + 1 = _
        rw [h5, hc]
        omega
    | false =>
      have hc : (false :: r).reverse.count true = r.reverse.count true := by simp
      have hu : sinceSave (false :: r).reverse = 0 := by simp [sinceSave]
      refine ⟨?_, ?_, h3, h4, ?_⟩
      · rw [hc]
        exact h1
      · show (ScriptState.kept (List.foldl _ _ _)).map _ = _
        rw [h2, hc, hu, h1, batches_state]
        cases s.kept <;> simp
      · rw [hc]
        exact h5

/-- Passes that are broken off, while the loader is restoring, do to the loader and to what the dataset keeps what one long list of steps does. -/
theorem broken_core (nw bs : Nat) : ∀ (passes : List (List Bool)) (s t : ScriptState), s.loader = t.loader → s.kept = t.kept → s.loader.restore = true →
    (passes.foldl (passBroken nw bs) s).loader = (passes.flatten.foldl (passStep nw bs) t).loader ∧
    (passes.foldl (passBroken nw bs) s).kept = (passes.flatten.foldl (passStep nw bs) t).kept
  | [], s, t, h1, h2, _ => ⟨h1, h2⟩
  | p :: passes, s, t, h1, h2, hr => by
    rw [List.foldl_cons, List.flatten_cons, List.foldl_append]
    have hb : (passBegin nw s).loader = t.loader := by
      show loaderBegin s.loader = _
      rw [← h1]
      unfold loaderBegin
      rw [if_pos hr]
    have hk : (passBegin nw s).kept = t.kept := by simp [passBegin, hr, h2]
    have a := steps_spec nw bs (passBegin nw s) p
    have b := steps_spec nw bs t p
    apply broken_core nw bs passes
    · show ScriptState.loader (p.foldl _ _) = _
      rw [a.1, b.1, hb]
    · show ScriptState.kept (p.foldl _ _) = _
      rw [a.2.1, b.2.1, hb, hk]
    · show (ScriptState.loader (p.foldl _ _)).restore = true
      rw [a.1, batches_state, hb, ← h1]
      exact hr

/-- The first worker that is asked. -/
theorem first_worker (latest nw : Nat) (h : latest ≤ max nw 1) : (restartIndexes latest nw).headD 0 = latest % max nw 1 := by
  unfold restartIndexes
  by_cases h0 : latest = 0
  · simp [h0]
  · rw [if_pos (by omega)]
    by_cases hl : latest < nw
    · obtain ⟨m, hm⟩ : ∃ m, nw - latest = m + 1 := ⟨nw - latest - 1, by omega⟩
      rw [hm, List.range'_succ, Nat.mod_eq_of_lt (by omega)]
      rfl
    · rw [show nw - latest = 0 by omega, show latest = max nw 1 by omega, Nat.mod_self]
      rfl

/-- The record of a loader after `k` batches of an epoch (`c21_recorded`). -/
def recordOf (nw bs epoch k : Nat) : LoaderDict := ⟨epoch, k * bs, [], if k = 0 then 0 else (k - 1) % max nw 1⟩

/-- **C98, what the next pass does.** Load the record of `k` batches of an epoch into a new loader, and break off any number of passes. The next pass is one of the same epoch;
its workers resume from the state that was saved last (or from the one that was loaded), so all batches taken since then are given again; but the counter goes on from where
the last pass was broken off, and the first worker is the one that gave the last batch, not the one after it. -/
theorem c98_next_pass (nw bs len epoch k : Nat) (hk : 0 < k) (hbs : 0 < bs) (hlen : k * bs < len) (passes : List (List Bool)) :
    let t := passBegin nw (passes.foldl (passBroken nw bs) (scriptLoad len (recordOf nw bs epoch k) scriptNew))
    t.loader.epoch = epoch ∧ t.loader.restore = true ∧
    t.start = (k + passes.flatten.count true - sinceSave passes.flatten) * bs ∧
    t.loader.yielded = (k + passes.flatten.count true) * bs ∧
    t.worker = (if passes.flatten.count true = 0 then k else k + passes.flatten.count true - 1) % max nw 1 ∧
    t.kept = some t.start ∧ t.given = 0 ∧ t.loader.cycle % max nw 1 = (k + passes.flatten.count true) % max nw 1 ∧
    t.loader.latest ≤ max nw 1 ∧ t.worker = t.loader.latest % max nw 1 := by
  have hkb : 0 < k * bs := Nat.mul_pos hk hbs
  obtain ⟨s, hs⟩ : ∃ s, s = scriptLoad len (recordOf nw bs epoch k) scriptNew := ⟨_, rfl⟩
  have hl : s.loader = ⟨epoch, k * bs, [], (k - 1) % max nw 1 + 1, (k - 1) % max nw 1 + 1, true⟩ := by
    rw [hs]
    unfold scriptLoad loaderLoad scriptNew newLoader recordOf
    simp only [Bool.false_or, Nat.zero_add, LoaderState.mk.injEq, true_and, if_neg (show ¬ k = 0 by omega)]
    simp [hkb, hlen]
  have hkept : s.kept = some (k * bs) := by rw [hs]; rfl
  rw [← hs]
  have hn : 0 < max nw 1 := by omega
  obtain ⟨n, hnn⟩ : ∃ n, n = max nw 1 := ⟨_, rfl⟩
  have core := broken_core nw bs passes s s rfl rfl (by rw [hl])
  have sp := steps_spec nw bs s passes.flatten
  have hle := sinceSave_le passes.flatten
  obtain ⟨B, hB⟩ : ∃ B, B = passes.flatten.count true := ⟨_, rfl⟩
  obtain ⟨U, hU⟩ : ∃ U, U = sinceSave passes.flatten := ⟨_, rfl⟩
  obtain ⟨u, hu⟩ : ∃ u, u = passes.foldl (passBroken nw bs) s := ⟨_, rfl⟩
  have hun : ¬ false ∈ passes.flatten → U = B := by
    intro hf
    rw [hU, hB]
    unfold sinceSave
    have hf' : ¬ false ∈ passes.flatten.reverse := fun h => hf (List.mem_reverse.1 h)
    rw [← List.count_reverse]
    generalize passes.flatten.reverse = q at hf'
    clear hf
    induction q with
    | nil => rfl
    | cons b q ih =>
      cases b with
      | true =>
        have := ih (fun h => hf' (List.mem_cons_of_mem _ h))
        simp [List.takeWhile_cons, this]
      | false => exact absurd List.mem_cons_self hf'
  rw [← hu] at core
  rw [← hB] at sp hle
  rw [← hU] at sp hle
  rw [← hu, ← hB, ← hU]
  have e1 : u.loader = ⟨epoch, k * bs + B * bs, [], (k - 1) % n + 1 + B, if B = 0 then (k - 1) % n + 1 else ((k - 1) % n + 1 + (B - 1)) % n, true⟩ := by
    rw [core.1, sp.1, batches_state, hl, cycleLength_eq, ← hnn]
  have e2 : u.kept = some ((k + B - U) * bs) := by
    rw [core.2, sp.2.1, hkept, Option.map_some]
    congr 1
    split
    · rw [hl]
      show k * bs + (B - U) * bs = _
      rw [← Nat.add_mul]
      congr 1
      omega
    · rename_i hf
      congr 1
      have := hun hf
      omega
  have hlt : (k - 1) % n < n := Nat.mod_lt _ (by omega)
  have hlat : u.loader.latest ≤ n := by
    rw [e1]
    show (if B = 0 then _ else _) ≤ n
    split
    · omega
    · exact Nat.le_of_lt (Nat.mod_lt _ (by omega))
  have hre : u.loader.restore = true := by rw [e1]
  have hbeg : loaderBegin u.loader = u.loader := by simp [loaderBegin, hre]
  have hw : (passBegin nw u).worker = u.loader.latest % n := by
    show (if (loaderBegin u.loader).restore then restartIndexes (loaderBegin u.loader).latest nw else []).headD 0 = _
    rw [hbeg, hre, if_pos rfl, first_worker _ _ (by rw [← hnn]; exact hlat), ← hnn]
  have hpl : (passBegin nw u).loader = u.loader := hbeg
  have hpk : (passBegin nw u).kept = u.kept := by simp [passBegin, hre]
  have hps : (passBegin nw u).start = (k + B - U) * bs := by simp [passBegin, hre, e2]
  rw [← hnn]
  refine ⟨by rw [hpl, e1], by rw [hpl, e1], hps, ?_, ?_, ?_, rfl, ?_, ?_, ?_⟩
  · rw [hpl, e1, Nat.add_mul]
  · rw [hw, e1]
    show (if B = 0 then _ else _) % n = (if B = 0 then _ else _) % n
    split
    · rw [Nat.mod_add_mod]
      congr 1
      omega
    · rw [Nat.mod_mod, Nat.add_assoc, Nat.mod_add_mod]
      congr 1
      omega
  · rw [hpk, hps, e2]
  · rw [hpl, e1]
    show ((k - 1) % n + 1 + B) % n = _
    rw [Nat.add_assoc, Nat.mod_add_mod]
    congr 1
    omega
  · rw [hpl]
    exact hlat
  · rw [hw, hpl]

/-- **C98, when the next pass is right.** After passes that were broken off, the next one begins where its counter says, with the worker whose turn it is, exactly when no batch
was taken in them, or when a state was saved after the last batch and there is one worker. -/
theorem c98_right_iff (nw bs len epoch k : Nat) (hk : 0 < k) (hbs : 0 < bs) (hlen : k * bs < len) (passes : List (List Bool)) :
    let t := passBegin nw (passes.foldl (passBroken nw bs) (scriptLoad len (recordOf nw bs epoch k) scriptNew))
    (t.start = t.loader.yielded ∧ t.worker = t.start / bs % max nw 1) ↔
      (∀ p ∈ passes, true ∉ p) ∨ (nw ≤ 1 ∧ sinceSave passes.flatten = 0) := by
  intro t
  obtain ⟨_, _, h3, h4, h5, _⟩ := c98_next_pass nw bs len epoch k hk hbs hlen passes
  have hle := sinceSave_le passes.flatten
  have hB : (∀ p ∈ passes, true ∉ p) ↔ passes.flatten.count true = 0 := by
    rw [List.count_eq_zero, List.mem_flatten]
    constructor
    · intro h ⟨p, h1, h2⟩; exact h p h1 h2
    · intro h p h1 h2; exact h ⟨p, h1, h2⟩
  rw [hB]
  show ((passBegin nw _).start = (passBegin nw _).loader.yielded ∧ (passBegin nw _).worker = (passBegin nw _).start / bs % max nw 1) ↔ _
  rw [h3, h4, h5, Nat.mul_div_cancel _ hbs, Nat.mul_right_cancel_iff hbs]
  generalize passes.flatten.count true = B at *
  generalize sinceSave passes.flatten = U at *
  constructor
  · rintro ⟨ha, hb⟩
    by_cases h0 : B = 0
    · exact .inl h0
    · right
      have hU : U = 0 := by omega
      refine ⟨?_, hU⟩
      rw [if_neg h0, hU, Nat.sub_zero] at hb
      by_cases hn : nw ≤ 1
      · exact hn
      · exfalso
        rw [show max nw 1 = nw by omega] at hb
        have e := Nat.mod_add_mod (k + B - 1) nw 1
        rw [show k + B - 1 + 1 = k + B by omega, hb] at e
        have hlt := Nat.mod_lt (k + B) (show 0 < nw by omega)
        by_cases hx : (k + B) % nw + 1 = nw
        · rw [hx, Nat.mod_self] at e
          omega
        · rw [Nat.mod_eq_of_lt (by omega)] at e
          omega
  · rintro (h0 | ⟨hn, hU⟩)
    · have hU : U = 0 := by omega
      subst hU h0
      simp
    · subst hU
      rw [show max nw 1 = 1 by omega]
      simp [Nat.mod_one]

/-- **C98, what a state saved later says.** A state that is saved in the next pass, after `j` batches of it, counts the batches since the last saved state twice: a loader that is
resumed from it leaves out as many batches after the last one that was given. -/
theorem c98_counted_twice (nw bs len epoch k : Nat) (hk : 0 < k) (hbs : 0 < bs) (hlen : k * bs < len) (passes : List (List Bool)) (steps : List Bool) :
    let t := passBroken nw bs (passes.foldl (passBroken nw bs) (scriptLoad len (recordOf nw bs epoch k) scriptNew)) steps
    (loaderDict t.loader).yielded = t.start + t.given * bs + sinceSave passes.flatten * bs ∧
    (0 < t.given → (loaderDict t.loader).latest = (k + passes.flatten.count true + t.given - 1) % max nw 1 ∧
      (t.worker + (t.given - 1)) % max nw 1 = (k + (passes.flatten.count true - 1) + t.given - 1) % max nw 1) := by
  intro t
  obtain ⟨_, _, h3, h4, h5, _, h7, h8, _⟩ := c98_next_pass nw bs len epoch k hk hbs hlen passes
  have hle := sinceSave_le passes.flatten
  obtain ⟨u, hu⟩ : ∃ u, u = passBegin nw (passes.foldl (passBroken nw bs) (scriptLoad len (recordOf nw bs epoch k) scriptNew)) := ⟨_, rfl⟩
  rw [← hu] at h3 h4 h5 h7 h8
  have ht : t = steps.foldl (passStep nw bs) u := by rw [hu]; rfl
  have sp := steps_spec nw bs u steps
  rw [← ht] at sp
  obtain ⟨s1, _, s3, s4, s5⟩ := sp
  rw [h7, Nat.zero_add] at s5
  rw [s3, s4, s5, s1, batches_state, h3, h5]
  generalize passes.flatten.count true = B at *
  generalize sinceSave passes.flatten = U at *
  generalize steps.count true = j at *
  constructor
  · show u.loader.yielded + j * bs = _
    rw [h4, ← Nat.add_mul, ← Nat.add_mul, ← Nat.add_mul]
    congr 1
    omega
  · intro hj
    constructor
    · show (if j = 0 then _ else _) = _
      rw [if_neg (by omega), cycleLength_eq, ← Nat.mod_add_mod, h8, Nat.mod_add_mod]
      congr 1
      omega
    · rw [Nat.mod_add_mod]
      congr 1
      split <;> omega

/-- **C98, a pass that was not resumed.** Over a loader that is not restoring, every pass, also after passes that were broken off, begins the next epoch from its beginning, and
what is recorded is the number of batches that it has given. -/
theorem c98_not_resumed (nw bs : Nat) (s : ScriptState) (hs : s.loader.restore = false) (steps : List Bool) :
    let t := passBroken nw bs s steps
    t.loader.restore = false ∧ t.start = 0 ∧ t.worker = 0 ∧ t.given = steps.count true ∧ t.kept = none ∧
    loaderDict t.loader = recordOf nw bs (s.loader.epoch + 1) t.given := by
  intro t
  have sp := steps_spec nw bs (passBegin nw s) steps
  have hb : (passBegin nw s).loader = { s.loader with latest := 0, cycle := 0, epoch := s.loader.epoch + 1, yieldedCombined := [], yielded := 0 } := by
    simp [passBegin, loaderBegin, hs]
  obtain ⟨s1, s2, s3, s4, s5⟩ := sp
  have s5' : t.given = steps.count true := by
    show ScriptState.given (steps.foldl _ _) = _
    rw [s5]; simp [passBegin]
  refine ⟨?_, ?_, ?_, s5', ?_, ?_⟩
  · show (ScriptState.loader (steps.foldl _ _)).restore = false
    rw [s1, batches_state, hb]; exact hs
  · show ScriptState.start (steps.foldl _ _) = 0
    rw [s3]; simp [passBegin, hs]
  · show ScriptState.worker (steps.foldl _ _) = 0
    rw [s4]; simp [passBegin, loaderBegin, hs]
  · show ScriptState.kept (steps.foldl _ _) = none
    rw [s2]; simp [passBegin, hs]
  · rw [s5']
    show loaderDict (ScriptState.loader (steps.foldl _ _)) = _
    rw [s1, batches_state, hb, cycleLength_eq]
    simp [loaderDict, recordOf]

/-- **C98, the end of a pass.** Once a pass has been read to its end, whatever was loaded and broken off before, the loader does not restore any more. -/
theorem c98_ended (nw bs : Nat) (s : ScriptState) (steps : List Bool) : (passEnded nw bs s steps).loader.restore = false := rfl

/-- **C98, what is given again.** In every execution of the pass after passes that were broken off, each worker resumes with the batches after the state that was saved last, and the
loader gives them round robin beginning with the worker that gave the last batch; with one worker the batches since the state that was saved last come again, in their order. -/
theorem c98_given_again (sh : Shuffler) (hsh : ∀ a n e k, (sh a n e k).Perm a)
    (W : Nat) (idx : List Nat) (ivs : List Interval) (dl : Bool) (nw bs prefetch : Nat) (hbs : 0 < bs) (hnw : 0 < nw) (hp : 0 < prefetch)
    (ws : List (List Piece)) (h : associate W idx ivs dl nw bs = .ok ws) (r : Nat) (epoch k len : Nat) (hk : 0 < k) (hkl : k * bs < len)
    (streams : List (List (Nat × Nat)))
    (hst : streams = (rankWorkers ws r nw).map fun ps => stream (fun j l => sh l ps.length epoch j) 0 ps)
    (hlen : streams.length = nw) (passes : List (List Bool)) (kept : Nat)
    (hkept : kept = k + passes.flatten.count true - sinceSave passes.flatten)
    (hleft : ∀ i xs, streams[i]? = some xs → bs * Spec.visits kept nw i < xs.length)
    (t : ScriptState) (ht : t = passBegin nw (passes.foldl (passBroken nw bs) (scriptLoad len (recordOf nw bs epoch k) scriptNew))) :
    ∃ resumed : List (List (Nat × Nat)), resumed.length = nw ∧
      (∀ i xs, resumed[i]? = some xs → ∃ st, resumeState sh ws r nw i t.start bs nw t.loader.epoch = .ok st ∧
        ∃ ys st', runIter sh (xs.length + 1) st = .ok (ys, true, st') ∧ ys.map (fun c => (c.chunkIndex, c.index)) = xs) ∧
      ∀ (es : List LoaderEvent) (next : LoaderIter (List (Nat × Nat))),
        next = loaderRun nw t.loader.restore (loaderStart nw prefetch t.loader.latest t.loader.restore (workerBatches bs resumed)) es →
        ∃ m, next.out = delivered bs resumed t.worker m ∧ (next.finished = true → ∀ p, m ≤ p → visit bs resumed t.worker p = none) ∧
          (nw = 1 → delivered bs streams 0 kept ++ next.out = delivered bs streams 0 (kept + m)) := by
  obtain ⟨h1, h2, h3, _, _, _, _, _, h9, h10⟩ := c98_next_pass nw bs len epoch k hk hbs hkl passes
  rw [← ht] at h1 h2 h3 h9 h10
  rw [← hkept] at h3
  obtain ⟨_, resumed, hrl, hworkers, hglue⟩ := c06_loader_continues_partial sh hsh W idx ivs dl nw bs hbs hnw ws h r epoch kept streams hst hlen hleft
  have hrn : resumed ≠ [] := by intro e; rw [e] at hrl; simp at hrl; omega
  have hm1 : max nw 1 = nw := by omega
  rw [hm1] at h9 h10
  refine ⟨resumed, hrl, ?_, ?_⟩
  · rw [h3, h1]
    exact hworkers
  · intro es next hnext
    obtain ⟨m, a1, a2⟩ := c39_round_robin resumed hrn bs prefetch t.loader.latest hbs hp t.loader.restore (by rw [hrl]; exact h9) (by rw [h2]; simp) es
    rw [hrl, ← hnext] at a1 a2
    have hvis : visit bs resumed t.loader.latest = visit bs resumed t.worker := by
      funext p
      rw [← visit_start_mod bs resumed t.loader.latest, hrl, h10]
    have hdel : delivered bs resumed t.loader.latest m = delivered bs resumed t.worker m := by unfold delivered; rw [hvis]
    refine ⟨m, by rw [a1, hdel], by rw [← hvis]; exact a2, ?_⟩
    intro h1w
    subst h1w
    rw [a1, hdel, ← hglue m, h10]
    simp [Nat.mod_one]

/-- **C98, loading once more.** A loader that is still restoring, as after a resumed pass that was broken off, restores from any state that is loaded into it; a loader that is not restoring begins the next epoch if the
state has no samples or all of them. -/
theorem c98_load_again (nw len : Nat) (d : LoaderDict) (s : ScriptState) :
    let t := passBegin nw (scriptLoad len d s)
    (s.loader.restore = true → t.loader.restore = true ∧ t.loader.epoch = d.epoch ∧ t.start = d.yielded) ∧
    (s.loader.restore = false → (d.yielded = 0 ∨ len ≤ d.yielded) → t.loader.restore = false ∧ t.loader.epoch = d.epoch + 1 ∧ t.start = 0) ∧
    (s.loader.restore = false → 0 < d.yielded → d.yielded < len → t.loader.restore = true ∧ t.loader.epoch = d.epoch ∧ t.start = d.yielded) := by
  intro t
  refine ⟨?_, ?_, ?_⟩
  · intro h
    have hr : (scriptLoad len d s).loader.restore = true := by simp [scriptLoad, loaderLoad, h]
    have hb : t.loader = (scriptLoad len d s).loader := by
      show loaderBegin _ = _
      unfold loaderBegin
      rw [if_pos hr]
    refine ⟨by rw [hb]; exact hr, by rw [hb]; rfl, ?_⟩
    show (if (scriptLoad len d s).loader.restore then (scriptLoad len d s).kept else none).getD 0 = _
    rw [hr]
    rfl
  · intro h hd
    have hr : (scriptLoad len d s).loader.restore = false := by
      rcases hd with hd | hd
      · simp [scriptLoad, loaderLoad, h, hd]
      · have : ¬ d.yielded < len := by omega
        simp [scriptLoad, loaderLoad, h, this]
    have hb : t.loader = loaderBegin (scriptLoad len d s).loader := rfl
    refine ⟨?_, ?_, ?_⟩
    · rw [hb]; unfold loaderBegin; rw [hr]; rfl
    · rw [hb]; unfold loaderBegin; rw [hr]; rfl
    · show (if (scriptLoad len d s).loader.restore then (scriptLoad len d s).kept else none).getD 0 = _
      rw [hr]
      rfl
  · intro h h1 h2
    have hr : (scriptLoad len d s).loader.restore = true := by simp [scriptLoad, loaderLoad, h1, h2]
    have hb : t.loader = (scriptLoad len d s).loader := by
      show loaderBegin _ = _
      unfold loaderBegin
      rw [if_pos hr]
    refine ⟨by rw [hb]; exact hr, by rw [hb]; rfl, ?_⟩
    show (if (scriptLoad len d s).loader.restore then (scriptLoad len d s).kept else none).getD 0 = _
    rw [hr]
    rfl

/-- **C98, a state of a whole epoch.** If a state saved at the end of an epoch is loaded into a loader that is still restoring, each worker whose samples are all counted raises `IndexError`; in a loader that is not restoring
the next epoch begins. -/
theorem c98_whole_epoch_raises (sh : Shuffler) (ws : List (List Piece)) (nw bs len r i : Nat) (hbs : 0 < bs) (hi : i < nw) (ps : List Piece) (hps : ws[r * nw + i]? = some ps)
    (d : LoaderDict) (s : ScriptState) (hs : s.loader.restore = true)
    (hdone : (samples ps).length ≤ bs * Spec.visits (d.yielded / bs) nw i + (if i = d.yielded / bs % nw then d.yielded % bs else 0)) :
    let t := passBegin nw (scriptLoad len d s)
    resumeState sh ws r nw i t.start bs nw t.loader.epoch = .error .indexError := by
  intro t
  obtain ⟨_, h2, h3⟩ := (c98_load_again nw len d s).1 hs
  rw [show t.start = d.yielded from h3]
  exact c06_resume_finished_worker_raises sh ws r nw i d.yielded bs _ hbs hi ps hps hdone

/-- The hypotheses of `c98_whole_epoch_raises` can be met: a pass resumed from three batches is broken off, and the state of all fifteen samples is loaded into the loader. -/
example : ∃ ws ps, associate 1 [0,1,2] demoIntervals false 2 3 = .ok ws ∧ ws[0]? = some ps ∧
    let s := passBroken 2 2 (scriptLoad 15 (recordOf 2 2 5 3) scriptNew) [true]
    s.loader.restore = true ∧ (samples ps).length ≤ 3 * Spec.visits (15 / 3) 2 0 + (if 0 = 15 / 3 % 2 then 15 % 3 else 0) := by
  refine ⟨_, _, rfl, rfl, by decide, by decide⟩

/-- Two workers, batches of two, a state after three batches. A pass of four batches, with a state saved after the second, is broken off. The next pass resumes from ten samples,
counts from fourteen, and asks worker 0 first though it is the turn of worker 1; one batch later the state says sixteen where twelve were reached. -/
theorem c98_example :
    let t := passBegin 2 ([[true, true, false, true, true]].foldl (passBroken 2 2) (scriptLoad 40 (recordOf 2 2 5 3) scriptNew))
    t.start = 10 ∧ t.loader.yielded = 14 ∧ t.worker = 0 ∧ t.start / 2 % 2 = 1 ∧ t.loader.epoch = 5 ∧
    (loaderDict (passStep 2 2 t true).loader).yielded = 16 ∧ t.start + 2 = 12 := by decide

/-- The hypotheses of `c98_given_again` can be met. -/
example : ∃ ws, associate 1 [0,1,2] demoIntervals false 2 3 = .ok ws ∧
    let streams := (rankWorkers ws 0 2).map fun ps => stream (fun _ l => l.reverse) 0 ps
    streams.length = 2 ∧ 1 * 3 < 15 ∧
    (∀ i xs, streams[i]? = some xs → 3 * Spec.visits (1 + [true, false, true].count true - sinceSave [[true, false, true]].flatten) 2 i < xs.length) := by
  refine ⟨_, rfl, rfl, by decide, ?_⟩
  intro i xs hxs
  match i with
  | 0 => injection hxs with hxs; subst hxs; decide
  | 1 => injection hxs with hxs; subst hxs; decide
  | n + 2 =>
    have := (List.getElem?_eq_some_iff.1 hxs).1
    exact absurd (show n + 2 < 2 from this) (by omega)

end LitData.Props
