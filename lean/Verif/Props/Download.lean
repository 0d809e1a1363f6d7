import Verif.Model.Download
import Verif.Props.LoaderIter

/-! C30: a chunk fetched by the local downloader is whole or absent. -/

namespace LitData.Props

open LitData

/-- Past the test that found no chunk, before the rename. -/
def DPc.busy : DPc → Bool
  | .absent _ => true
  | .copying _ _ _ => true
  | _ => false

/-- The lock file a process has opened. -/
def DPc.lockOf : DPc → Option Nat
  | .idle => none
  | .opened l => some l
  | .locked l => some l
  | .absent l => some l
  | .copying l _ _ => some l
  | .renamed l => some l
  | .unlinked l => some l

theorem DPc.holds_lockOf {c : DPc} {l : Nat} (h : c.holds = some l) : DPc.lockOf c = some l := by
  cases c <;> simp_all [DPc.holds, DPc.lockOf]

theorem DPc.busy_holds {c : DPc} (h : DPc.busy c = true) : ∃ l, c.holds = some l := by
  cases c <;> simp_all [DPc.holds, DPc.busy]

/-- No process is inside `download_file`. -/
def AllIdle (s : DState) : Prop := ∀ p, s.pc p = .idle

structure DInv (remote : Bytes) (s : DState) : Prop where
  copy : ∀ p l f k, s.pc p = .copying l f k → s.tmp = some f ∧ s.data f = remote.take k ∧ k ≤ remote.length
  whole : ∀ f, s.loc = some f → s.data f = remote ∧ s.tmp ≠ some f ∧ f < s.fresh
  there : s.loc ≠ none → ∀ p, DPc.busy (s.pc p) = false
  same : s.loc = none → ∀ p l, DPc.lockOf (s.pc p) = some l → s.lock = some l
  excl : ∀ p q l, (s.pc p).holds = some l → (s.pc q).holds = some l → p = q
  tmpLt : ∀ f, s.tmp = some f → f < s.fresh
  after : s.loc = none → ∀ p l, s.pc p ≠ .renamed l ∧ s.pc p ≠ .unlinked l

theorem DInv.one {remote : Bytes} {s : DState} (h : DInv remote s) {p q : Nat} (hp : DPc.busy (s.pc p) = true) (hq : DPc.busy (s.pc q) = true) : p = q := by
  have hl : s.loc = none := by
    cases e : s.loc with
    | none => rfl
    | some f => have := h.there (by simp [e]) p; simp_all
  obtain ⟨l, h1⟩ := DPc.busy_holds hp
  obtain ⟨m, h2⟩ := DPc.busy_holds hq
  have e1 := h.same hl p l (DPc.holds_lockOf h1)
  have e2 := h.same hl q m (DPc.holds_lockOf h2)
  rw [e1] at e2
  cases e2
  exact h.excl p q l h1 h2

theorem writeAt_take (remote : Bytes) (k n : Nat) (h : k + n ≤ remote.length) : writeAt (remote.take k) k ((remote.drop k).take n) = remote.take (k + n) := by
  unfold writeAt
  have h1 : (remote.take k).length = k := by rw [List.length_take]; omega
  rw [h1, Nat.sub_self, List.replicate_zero, List.append_nil, List.take_of_length_le (l := remote.take k) (by omega),
    List.drop_of_length_le (l := remote.take k) (by rw [List.length_take, List.length_take, List.length_drop]; omega), List.append_nil, List.take_add]

theorem dinv_start {remote : Bytes} {s : DState} (h : s.Start remote) : DInv remote s := by
  refine ⟨?_, ?_, ?_, ?_, ?_, ?_, ?_⟩
  · intro p l f k e; rw [h.idle p] at e; cases e
  · intro f e; exact ⟨h.whole f e, fun e2 => (h.tmp f e2).1 e, h.loc f e⟩
  · intro _ p; rw [h.idle p]; rfl
  · intro _ p l e; rw [h.idle p] at e; cases e
  · intro p q l e; rw [h.idle p] at e; cases e
  · intro f e; exact (h.tmp f e).2
  · intro _ p l; rw [h.idle p]; exact ⟨by simp, by simp⟩

theorem dinv_idle {remote : Bytes} {s : DState} (h : DInv remote s) (p : Nat) : DInv remote { s with pc := upd s.pc p .idle } := by
  obtain ⟨h1, h2, h3, h4, h5, h6, h7⟩ := h
  constructor <;> simp only [upd] <;> grind [DPc.busy, DPc.lockOf, DPc.holds]

theorem dinv_step {remote : Bytes} {s t : DState} (h : DInv remote s) (hst : DStep remote AllIdle s t) : DInv remote t := by
  have one := @DInv.one remote s h
  obtain ⟨h1, h2, h3, h4, h5, h6, h7⟩ := id h
  cases hst with
  | openLock p l hp hl => constructor <;> simp only [upd] <;> grind [DPc.busy, DPc.lockOf, DPc.holds]
  | createLock p hp hl => constructor <;> simp only [upd] <;> grind [DPc.busy, DPc.lockOf, DPc.holds]
  | takeLock p l hp hl => constructor <;> simp only [upd] <;> grind [DPc.busy, DPc.lockOf, DPc.holds]
  | timeout p l hp => exact dinv_idle h p
  | present p l f hp hl => exact dinv_idle h p
  | missing p l hp hl => constructor <;> simp only [upd] <;> grind [DPc.busy, DPc.lockOf, DPc.holds]
  | truncate p l f hp ht => constructor <;> simp only [upd] <;> grind [DPc.busy, DPc.lockOf, DPc.holds]
  | create p l hp ht => constructor <;> simp only [upd] <;> grind [DPc.busy, DPc.lockOf, DPc.holds]
  | write p l f k n hp hk => constructor <;> simp only [upd] <;> grind [DPc.busy, DPc.lockOf, DPc.holds, writeAt_take]
  | rename p l f g hp ht => constructor <;> simp only [upd] <;> grind [DPc.busy, DPc.lockOf, DPc.holds]
  | renameFails p l f hp ht => exact dinv_idle h p
  | unlink p l hp => constructor <;> simp only [upd] <;> grind [DPc.busy, DPc.lockOf, DPc.holds]
  | release p l hp => exact dinv_idle h p
  | crash p => exact dinv_idle h p
  | deleteChunk hq => constructor <;> simp only [AllIdle] at hq <;> grind [DPc.busy, DPc.lockOf, DPc.holds]
  | deleteLock hq => constructor <;> simp only [AllIdle] at hq <;> grind [DPc.busy, DPc.lockOf, DPc.holds]

theorem dinv_steps {remote : Bytes} {s t : DState} (h : DInv remote s) (hst : DSteps remote AllIdle s t) : DInv remote t := by
  induction hst with
  | refl => exact h
  | tail _ h2 ih => exact dinv_step ih h2

/-- **C30.** Any number of processes fetch the chunk, each may be killed anywhere, and chunks are deleted only while no process is
fetching: the chunk is absent or whole at every moment. -/
theorem c30_whole_or_absent_partial (remote : Bytes) (s t : DState) (hs : s.Start remote) (hst : DSteps remote AllIdle s t) :
    t.loc = none ∨ ∃ f, t.loc = some f ∧ t.data f = remote := by
  cases h : t.loc with
  | none => exact .inl rfl
  | some f => exact .inr ⟨f, rfl, ((dinv_steps (dinv_start hs) hst).whole f h).1⟩

/-- An inode that holds the chunk and is out of reach of every writer. -/
structure Settled (remote : Bytes) (s : DState) (f : Nat) : Prop where
  data : s.data f = remote
  tmp : s.tmp ≠ some f
  fresh : f < s.fresh
  fd : ∀ p l k, s.pc p ≠ .copying l f k

theorem settled_step {remote : Bytes} {quiet : DState → Prop} {s t : DState} {f : Nat} (h : Settled remote s f) (hst : DStep remote quiet s t) : Settled remote t f := by
  obtain ⟨h1, h2, h3, h4⟩ := h
  cases hst <;> constructor <;> grind [upd]

/-- **C30, for a reader that has opened the chunk.** The file it opened keeps its content, even while the chunk is deleted and
fetched again, and even if chunks are deleted at any time from then on. -/
theorem c30_opened_stays_partial (remote : Bytes) (quiet : DState → Prop) (s t u : DState) (hs : s.Start remote) (hst : DSteps remote AllIdle s t) (f : Nat)
    (hf : t.loc = some f) (htu : DSteps remote quiet t u) : u.data f = remote := by
  have hi := dinv_steps (dinv_start hs) hst
  have h0 : Settled remote t f := by
    obtain ⟨a, b, c⟩ := hi.whole f hf
    refine ⟨a, b, c, ?_⟩
    intro p l k e
    exact b (hi.copy p l f k e).1
  have : Settled remote u f := by
    induction htu with
    | refl => exact h0
    | tail _ h2 ih => exact settled_step ih h2
  exact this.data

/-- No process, no file. -/
def dEmpty : DState := ⟨fun _ => .idle, fun _ => [], 0, none, none, none⟩

theorem dEmpty_start (remote : Bytes) : dEmpty.Start remote :=
  ⟨fun _ => rfl, fun _ h => (by cases h), fun _ h => (by cases h), fun _ h => (by cases h)⟩

/-- **A process left alone fetches the chunk**, whatever a crash left behind. -/
theorem c30_fetches (remote : Bytes) (s : DState) (hs : s.Start remote) (hl : s.loc = none) :
    ∃ t f, DSteps remote AllIdle s t ∧ t.loc = some f ∧ t.data f = remote ∧ AllIdle t := by
  have hidle := hs.idle
  have h1 : ∃ t l, DSteps remote AllIdle s t ∧ t.pc 0 = .opened l ∧ (∀ q, q ≠ 0 → t.pc q = .idle) ∧ t.loc = none := by
    cases h : s.lock with
    | none => exact ⟨_, s.fresh, .tail (.refl s) (.createLock s 0 (hidle 0) h), by simp [upd], fun q hq => by simp [upd, hq, hidle q], hl⟩
    | some l => exact ⟨_, l, .tail (.refl s) (.openLock s 0 l (hidle 0) h), by simp [upd], fun q hq => by simp [upd, hq, hidle q], hl⟩
  obtain ⟨t, l, g1, g2, g3, g4⟩ := h1
  have hlock : ∀ q, (t.pc q).holds ≠ some l := by
    intro q
    by_cases hq : q = 0
    · subst hq; rw [g2]; simp [DPc.holds]
    · rw [g3 q hq]; simp [DPc.holds]
  have g5 := DSteps.tail g1 (.takeLock t 0 l g2 hlock)
  have g6 := DSteps.tail g5 (.missing _ 0 l (by simp [upd]) g4)
  generalize hu : ({ { t with pc := upd t.pc 0 (.locked l) } with pc := upd { t with pc := upd t.pc 0 (.locked l) }.pc 0 (.absent l) } : DState) = u at g6
  have u1 : u.pc 0 = .absent l := by rw [← hu]; simp [upd]
  have u2 : ∀ q, q ≠ 0 → u.pc q = .idle := by intro q hq; rw [← hu]; simp [upd, hq, g3 q hq]
  have h2 : ∃ v f, DSteps remote AllIdle s v ∧ v.pc 0 = .copying l f 0 ∧ (∀ q, q ≠ 0 → v.pc q = .idle) := by
    cases h : u.tmp with
    | none => exact ⟨_, u.fresh, .tail g6 (.create u 0 l u1 h), by simp [upd], fun q hq => by simp [upd, hq, u2 q hq]⟩
    | some f => exact ⟨_, f, .tail g6 (.truncate u 0 l f u1 h), by simp [upd], fun q hq => by simp [upd, hq, u2 q hq]⟩
  obtain ⟨v, f, k1, k2, k3⟩ := h2
  have k4 := DSteps.tail k1 (.write v 0 l f 0 remote.length k2 (by omega))
  rw [Nat.zero_add] at k4
  have k5 := ((dinv_steps (dinv_start hs) k4).copy 0 l f remote.length (by simp [upd])).1
  have k6 := DSteps.tail k4 (.rename _ 0 l f f (by simp [upd]) k5)
  have k7 := DSteps.tail k6 (.unlink _ 0 l (by simp [upd]))
  have k8 := DSteps.tail k7 (.release _ 0 l (by simp [upd]))
  refine ⟨_, f, k8, rfl, ?_, ?_⟩
  · exact ((dinv_steps (dinv_start hs) k8).whole f rfl).1
  · intro q
    by_cases hq : q = 0
    · subst hq; simp [upd]
    · simp [upd, hq, k3 q hq]

/-- **C30 fails when a chunk is deleted while others fetch it.** One thread deletes the chunk; a process takes the lock and copies
the chunk; the thread goes on and removes the lock file; a second process takes a new lock and empties the temporary file; the
first process renames it. One byte of two is visible. -/
theorem c30_deleted_lock : ∃ s t : DState, s.Start [7, 8] ∧ DSteps [7, 8] (fun _ => True) s t ∧ ∃ f, t.loc = some f ∧ t.data f = [7] := by
  let s : DState := ⟨fun _ => .idle, fun _ => [7, 8], 1, none, some 0, none⟩
  have h0 := DSteps.tail (DSteps.refl (remote := [7, 8]) (quiet := fun _ => True) s) (.deleteChunk s trivial)
  have h1 := h0.tail (.createLock _ 0 rfl rfl)
  have h2 := h1.tail (.takeLock _ 0 1 rfl (fun q => by by_cases h : q = 0 <;> simp [upd, h, DPc.holds, s]))
  have h3 := h2.tail (.missing _ 0 1 rfl rfl)
  have h4 := h3.tail (.create _ 0 1 rfl rfl)
  have h5 := h4.tail (.write _ 0 1 2 0 2 rfl (by decide))
  have h6 := h5.tail (.deleteLock _ trivial)
  have h7 := h6.tail (.createLock _ 1 rfl rfl)
  have h8 := h7.tail (.takeLock _ 1 3 rfl (fun q => by
    by_cases h : q = 0
    · subst h; simp [upd, DPc.holds]
    · by_cases h' : q = 1 <;> simp [upd, h, h', DPc.holds, s]))
  have h9 := h8.tail (.missing _ 1 3 rfl rfl)
  have h10 := h9.tail (.truncate _ 1 3 2 rfl rfl)
  have h11 := h10.tail (.write _ 1 3 2 0 1 rfl (by decide))
  have h12 := h11.tail (.rename _ 0 1 2 2 rfl rfl)
  exact ⟨s, _, ⟨fun _ => rfl, fun _ _ => rfl, fun _ h => (by cases h), fun f h => (by cases h; decide)⟩, h12, 2, rfl, rfl⟩

/-- The hypotheses are met after a crash in the middle of a copy: a half-written temporary file and a lock file are left. -/
example : DState.Start [7, 8] ⟨fun _ => .idle, fun i => if i = 1 then [7] else [7, 8], 3, some 1, some 0, some 2⟩ := by
  refine ⟨fun _ => rfl, fun f h => ?_, fun f h => ?_, fun f h => ?_⟩ <;> cases h <;> decide

end LitData.Props
