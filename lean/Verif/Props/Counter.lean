import Verif.Model.Counter

/-! C29: chunks shared by several readers. -/

namespace LitData.Props

open LitData

/-- The events when every reader obtains the locks and reads a chunk only after its thread counted it. -/
def LEvent.regular : LEvent → Bool
  | .incr _ => true
  | .fetch _ => true
  | .finish _ => true
  | .check _ => true
  | .delete _ => true
  | _ => false

/-- A reader begins to use the chunk. -/
def LEvent.joins : LEvent → Bool
  | .incr _ => true
  | .incrTimeout _ => true
  | .forced _ => true
  | .early _ => true
  | .incrBoth _ _ => true
  | _ => false

theorem lrun_append (s : LState) (xs ys : List LEvent) : lrun s (xs ++ ys) = (lrun s xs).bind fun t => lrun t ys := by
  induction xs generalizing s with
  | nil => rfl
  | cons e xs ih =>
    simp only [List.cons_append, lrun]
    cases lstep s e with
    | none => rfl
    | some t => simp only [Option.bind_some, ih]

/-- The counter is the number of readers. -/
structure LInv (s : LState) : Prop where
  count : s.count.getD 0 = s.users.length
  none : s.users = [] → s.count = none

theorem linv_step {s t : LState} {e : LEvent} (h : LInv s) (he : LEvent.regular e = true) (hst : lstep s e = some t) : LInv t := by
  obtain ⟨h1, h2⟩ := h
  cases e with
  | incr r =>
    simp only [lstep] at hst
    split at hst
    · cases hst
    · cases hst
      exact ⟨by simp [countUp, h1], by simp⟩
  | fetch r =>
    simp only [lstep] at hst
    split at hst
    · cases hst; exact ⟨h1, h2⟩
    · cases hst
  | finish r =>
    simp only [lstep] at hst
    split at hst
    · rename_i hr
      cases hst
      have hl := List.length_erase_of_mem hr
      have hpos : 0 < s.users.length := List.length_pos_of_mem hr
      cases hc : s.count with
      | none => rw [hc] at h1; simp at h1; omega
      | some n =>
        rw [hc] at h1
        simp only [Option.getD_some] at h1
        refine ⟨?_, ?_⟩
        · simp only [countDown]
          split
          · simp only [Option.getD_none]; omega
          · simp only [Option.getD_some]; omega
        · intro e
          simp only at e
          rw [e] at hl
          simp only [List.length_nil] at hl
          simp only [countDown]
          rw [if_pos (by omega)]
    · cases hst
  | check r =>
    simp only [lstep] at hst
    split at hst
    · split at hst <;> cases hst <;> exact ⟨h1, h2⟩
    · cases hst
  | delete r =>
    simp only [lstep] at hst
    split at hst
    · cases hst; exact ⟨h1, h2⟩
    · cases hst
  | _ => simp [LEvent.regular] at he

theorem linv_run {es : List LEvent} {s t : LState} (h : LInv s) (he : ∀ e ∈ es, LEvent.regular e = true) (hr : lrun s es = some t) : LInv t := by
  induction es generalizing s with
  | nil => cases hr; exact h
  | cons e es ih =>
    simp only [lrun] at hr
    cases hst : lstep s e with
    | none => rw [hst] at hr; cases hr
    | some u =>
      rw [hst] at hr
      exact ih (linv_step h (he e (by simp)) hst) (fun e' h' => he e' (List.mem_cons_of_mem _ h')) hr

/-- **C29, the counter.** It is the number of readers using the chunk, and there is no counter file when no one does. -/
theorem c29_counter (es : List LEvent) (s : LState) (he : ∀ e ∈ es, LEvent.regular e = true) (hr : lrun .init es = some s) :
    s.count.getD 0 = s.users.length ∧ (s.users = [] → s.count = none) := by
  have h := linv_run ⟨rfl, fun _ => rfl⟩ he hr
  exact ⟨h.count, h.none⟩

theorem users_nil_step {s t : LState} {e : LEvent} (h : s.users = []) (he : LEvent.joins e = false) (hst : lstep s e = some t) : t.users = [] := by
  cases e <;> simp only [lstep, h, LEvent.joins, reduceCtorEq] at hst he <;> (repeat' split at hst) <;> cases hst <;> simp_all

theorem users_nil_run {es : List LEvent} {s t : LState} (h : s.users = []) (he : ∀ e ∈ es, LEvent.joins e = false) (hr : lrun s es = some t) : t.users = [] := by
  induction es generalizing s with
  | nil => cases hr; exact h
  | cons e es ih =>
    simp only [lrun] at hr
    cases hst : lstep s e with
    | none => rw [hst] at hr; cases hr
    | some u =>
      rw [hst] at hr
      exact ih (users_nil_step h (he e (by simp)) hst) (fun e' h' => he e' (List.mem_cons_of_mem _ h')) hr

/-- **C29.** Any number of readers, in any order: when a thread finds the counter at zero and no reader begins to use the chunk
between that and the removal, the chunk is not in use when it is removed. Missing: readers that begin in between (`c29_race`),
and readers that are not counted, or not in time (the other witnesses). -/
theorem c29_removed_unused_partial (es ds : List LEvent) (r : Nat) (s t u v : LState) (he : ∀ e ∈ es, LEvent.regular e = true)
    (h1 : lrun .init es = some s) (h2 : lstep s (.check r) = some t) (hp : t.passed = r :: s.passed) (h3 : lrun t ds = some u)
    (hd : ∀ e ∈ ds, LEvent.joins e = false) (_h4 : lstep u (.delete r) = some v) : u.users = [] := by
  have h := linv_run ⟨rfl, fun _ => rfl⟩ he h1
  refine users_nil_run (s := t) ?_ hd h3
  simp only [lstep] at h2
  split at h2
  · split at h2
    · cases h2
      have := congrArg List.length hp
      simp at this
    · rename_i hc
      cases h2
      have := h.count
      exact List.eq_nil_of_length_eq_zero (by simp only; omega)
  · cases h2

/-- **The last reader can remove the chunk**: when no one uses it, a pending request passes the test. -/
theorem c29_removable (es : List LEvent) (r : Nat) (s : LState) (he : ∀ e ∈ es, LEvent.regular e = true) (h1 : lrun .init es = some s)
    (hu : s.users = []) (hr : r ∈ s.pending) : ∃ t u, lstep s (.check r) = some t ∧ lstep t (.delete r) = some u ∧ u.chunk = false := by
  have h := (linv_run ⟨rfl, fun _ => rfl⟩ he h1).none hu
  have h2 : lstep s (.check r) = some { s with pending := s.pending.erase r, passed := r :: s.passed } := by
    simp only [lstep]
    rw [if_pos hr, if_neg (by simp [h])]
  refine ⟨_, { s with pending := s.pending.erase r, chunk := false }, h2, ?_, rfl⟩
  simp [lstep]

/-- **C29 fails between the test and the removal.** Reader 1 counts itself and sees the chunk after reader 0's thread found no
user; the chunk is then removed. -/
theorem c29_race : ∃ s, lrun .init [.incr 0, .fetch 0, .finish 0, .check 0, .incr 1, .fetch 1, .delete 0] = some s ∧ s.users = [1] ∧ s.chunk = false :=
  ⟨_, rfl, rfl, rfl⟩

/-- **C29 fails after a lock timeout.** Reader 1 is not counted. -/
theorem c29_timeout : ∃ s, lrun .init [.incr 0, .fetch 0, .incrTimeout 1, .fetch 1, .finish 0, .check 0, .delete 0] = some s ∧ s.users = [1] ∧ s.chunk = false :=
  ⟨_, rfl, rfl, rfl⟩

/-- **C29 fails for forced downloads**, which are not counted. -/
theorem c29_forced : ∃ s, lrun .init [.forced 1, .fetch 1, .incr 0, .finish 0, .check 0, .delete 0] = some s ∧ s.users = [1] ∧ s.chunk = false :=
  ⟨_, rfl, rfl, rfl⟩

/-- **C29 fails for a reader that is ahead of its thread.** Reader 1 is through with the chunk that reader 0 fetched before its own
thread counted it. Its decrement takes away the count of reader 0, and the chunk is removed under reader 0. -/
theorem c29_early : ∃ s, lrun .init [.incr 0, .fetch 0, .early 1, .finish 1, .check 1, .delete 1] = some s ∧ s.users = [0] ∧ s.chunk = false :=
  ⟨_, rfl, rfl, rfl⟩

/-- The thread of such a reader counts it afterwards. If reader 0 was through before, the count stays and the chunk is never
removed. -/
theorem c29_late : ∃ s, lrun .init [.incr 0, .fetch 0, .early 1, .finish 0, .finish 1, .late 1, .check 0, .check 1] = some s ∧
    s.users = [] ∧ s.passed = [] ∧ s.pending = [] ∧ s.chunk = true := ⟨_, rfl, rfl, rfl, rfl, rfl⟩

/-- **C29 fails when two readers hold two locks**, one of them on a removed lock file: one count is lost. -/
theorem c29_lost_count : ∃ s, lrun .init [.incrBoth 0 1, .fetch 0, .finish 0, .check 0, .delete 0] = some s ∧ s.users = [1] ∧ s.chunk = false :=
  ⟨_, rfl, rfl, rfl⟩

/-- The hypotheses of `c29_removed_unused_partial` are met: two readers share the chunk, the first one's request is dropped, the
second one's passes. -/
example : ∃ s t u, lrun .init [.incr 0, .fetch 0, .incr 1, .fetch 1, .finish 0, .check 0, .finish 1] = some s ∧ lstep s (.check 1) = some t ∧
    t.passed = 1 :: s.passed ∧ lstep t (.delete 1) = some u ∧ s.chunk = true ∧ u.chunk = false := ⟨_, _, _, rfl, rfl, rfl, rfl, rfl, rfl⟩

end LitData.Props
