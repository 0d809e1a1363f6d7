import Verif.Model.MainLoop
import Verif.Lemmas.LoaderIter

/-! C50: the main process returns when the work is done and raises when a worker failed. -/

namespace LitData.Props

open LitData

/-- What holds throughout. -/
structure MainInv (workers : Nat) (items : Nat → Nat) (s : MainState) : Prop where
  counter : ∀ w, s.counter w ≤ items w
  sent : ∀ w, ∀ c ∈ s.progress w, c ≤ items w ∧ (c = items w → s.status w = .finished)
  tracker : ∀ w, s.tracker w ≤ items w ∧ (s.tracker w = items w → 0 < items w → s.status w = .finished)
  done : ∀ w, s.status w = .finished → s.counter w = items w
  last : ∀ w, w < workers → s.status w = .finished →
    (s.progress w = [] → s.tracker w = items w ∧ s.heard = true) ∧ ∀ c, (s.progress w).getLast? = some c → c = items w
  returned : s.main = .returned → workerSum workers s.tracker = workerSum workers items
  looping : s.main = .looping → s.heard = true → workerSum workers s.tracker ≠ workerSum workers items
  cause : 0 < s.errors ∨ s.main = .raised → ∃ w < workers, s.status w = .failed
  errors : s.main ≠ .raised → ∀ w, w < workers → s.status w = .failed → 0 < s.errors

theorem mainInv_init (workers : Nat) (items : Nat → Nat) : MainInv workers items .init := by
  constructor <;> simp [MainState.init] <;> omega

theorem mainInv_step {workers : Nat} {items : Nat → Nat} {s t : MainState} (h : MainInv workers items s)
    (hst : MainStep workers items s t) : MainInv workers items t := by
  obtain ⟨h1, h2, h3, h4, h5, h6, h7, h9, h8⟩ := h
  cases hst with
  | finish w hw hs hc =>
    constructor
    case last =>
      intro v hv hf
      by_cases e : v = w
      · subst e
        simp only [upd_same]
        refine ⟨fun e => absurd e (by simp), fun c hc' => ?_⟩
        rw [List.getLast?_concat] at hc'
        injection hc' with hc'
        rw [← hc', hc]
      · simp only [upd_other _ _ e] at hf ⊢
        exact h5 v hv hf
    all_goals simp only [upd]
    all_goals grind [upd]
  | readProgress w c rest hw hm hp =>
    have hcw := h2 w c (by rw [hp]; simp)
    constructor
    case last =>
      intro v hv hf
      by_cases e : v = w
      · subst e
        simp only [upd_same]
        obtain ⟨_, h52⟩ := h5 v hv hf
        rw [hp] at h52
        cases rest with
        | nil =>
          refine ⟨fun _ => ⟨h52 c (by simp), trivial⟩, fun d hd => by simp at hd⟩
        | cons d rest =>
          refine ⟨fun e => absurd e (by simp), fun d' hd' => h52 d' (by rw [List.getLast?_cons_cons]; exact hd')⟩
      · simp only [upd_other _ _ e]
        exact ⟨fun h => ⟨((h5 v hv hf).1 h).1, trivial⟩, (h5 v hv hf).2⟩
    all_goals simp only [upd]
    all_goals grind [upd]
  | _ => constructor <;> simp only [upd] <;> grind [upd]

theorem mainInv_steps {workers : Nat} {items : Nat → Nat} {s : MainState}
    (hst : MainSteps workers items .init s) : MainInv workers items s := by
  generalize hi : MainState.init = i at hst
  induction hst with
  | refl => subst hi; exact mainInv_init workers items
  | tail _ hs ih => exact mainInv_step ih hs

theorem sum_eq_all (n : Nat) (f g : Nat → Nat) (h : ∀ w, f w ≤ g w) (he : workerSum n f = workerSum n g) :
    ∀ w < n, f w = g w := by
  have hle : ∀ n, workerSum n f ≤ workerSum n g := by
    intro n
    induction n with
    | zero => exact Nat.le_refl _
    | succ n ih =>
      simp only [workerSum, List.range_succ, List.map_append, List.sum_append, List.map_cons, List.map_nil, List.sum_cons,
        List.sum_nil] at ih ⊢
      have := h n
      omega
  induction n with
  | zero => intro w hw; omega
  | succ n ih =>
    have h1 := hle n
    have h2 := h n
    simp only [workerSum, List.range_succ, List.map_append, List.sum_append, List.map_cons, List.map_nil, List.sum_cons,
      List.sum_nil] at he ih h1
    intro w hw
    by_cases e : w = n
    · subst e; omega
    · exact ih (by omega) w (by omega)

/-- C50. When the main process leaves its loop, every worker that had items has handled all of them and has ended regularly. -/
theorem c50_returns_complete {workers : Nat} {items : Nat → Nat} {s : MainState} (hst : MainSteps workers items .init s)
    (hr : s.main = .returned) (w : Nat) (hw : w < workers) (hi : 0 < items w) :
    s.status w = .finished ∧ s.counter w = items w := by
  have h := mainInv_steps hst
  have ht := sum_eq_all workers s.tracker items (fun w => (h.tracker w).1) (h.returned hr) w hw
  have := (h.tracker w).2 ht hi
  exact ⟨this, h.done w this⟩

/-- C50. If a worker that has items fails or is killed, the main process never goes on to the index. -/
theorem c50_failure_never_returns {workers : Nat} {items : Nat → Nat} {s : MainState} (hst : MainSteps workers items .init s)
    (w : Nat) (hw : w < workers) (hi : 0 < items w) (hf : s.status w = .failed ∨ s.status w = .killed) : s.main ≠ .returned := by
  intro hr
  have := (c50_returns_complete hst hr w hw hi).1
  rw [this] at hf
  rcases hf with hf | hf <;> cases hf

/-- How much can still happen. -/
def mainMeasure (workers : Nat) (items : Nat → Nat) (s : MainState) : Nat :=
  workerSum workers (fun w => 2 * (items w - s.counter w) + (if s.status w = .running then 2 else 0) + (s.progress w).length)
    + (if s.main = .looping then 1 else 0)

theorem workerSum_lt {n : Nat} {f g : Nat → Nat} (w : Nat) (hw : w < n) (h : ∀ v, v ≠ w → f v = g v) (hlt : f w < g w) :
    workerSum n f < workerSum n g := by
  have e : f = upd g w (f w) := by
    funext v
    by_cases hv : v = w
    · subst hv; simp [upd]
    · simp [upd, hv, h v hv]
  have := sum_upd n g w (f w) hw
  rw [← e] at this
  simp only [workerSum]
  omega

theorem mainMeasure_step {workers : Nat} {items : Nat → Nat} {s t : MainState} (hst : MainStep workers items s t) :
    mainMeasure workers items t < mainMeasure workers items s := by
  cases hst with
  | work w hw hs hc =>
    refine Nat.add_lt_add_right (workerSum_lt w hw (fun v hv => by simp [upd, hv]) ?_) _
    simp only [upd_same]; omega
  | workTell w hw hs hc =>
    refine Nat.add_lt_add_right (workerSum_lt w hw (fun v hv => by simp [upd, hv]) ?_) _
    simp only [upd_same, List.length_append, List.length_cons, List.length_nil]; omega
  | finish w hw hs hc =>
    refine Nat.add_lt_add_right (workerSum_lt w hw (fun v hv => by simp [upd, hv]) ?_) _
    simp [upd_same, hs]
    omega
  | fail w hw hs =>
    refine Nat.add_lt_add_right (workerSum_lt w hw (fun v hv => by simp [upd, hv]) ?_) _
    simp [upd_same, hs]
  | kill w hw hs =>
    refine Nat.add_lt_add_right (workerSum_lt w hw (fun v hv => by simp [upd, hv]) ?_) _
    simp [upd_same, hs]
  | readError hm he => simp [mainMeasure, hm]
  | readProgress w c rest hw hm hp =>
    refine Nat.add_lt_add_of_lt_of_le (workerSum_lt w hw (fun v hv => by simp [upd, hv]) ?_) ?_
    · simp [upd_same, hp]
    · simp only [hm]; split <;> simp

/-- Every execution comes to an end: no infinite sequence of messages (the main process may of course look at empty queues for ever). -/
theorem c50_terminates (workers : Nat) (items : Nat → Nat) : WellFounded fun t s => MainStep workers items s t :=
  Subrelation.wf (r := InvImage (· < ·) (mainMeasure workers items)) (fun h => mainMeasure_step h) (InvImage.wf _ Nat.lt_wfRel.wf)

/-- C50. An execution that can go no further, and in which no worker was killed, has ended: the main process has returned, or raised
because of a failure. -/
theorem c50_ends {workers : Nat} {items : Nat → Nat} {s : MainState} (hn : 0 < workers) (hst : MainSteps workers items .init s)
    (hkill : ∀ w < workers, s.status w ≠ .killed) (hend : ∀ t, ¬ MainStep workers items s t) : s.main ≠ .looping := by
  intro hm
  have h := mainInv_steps hst
  have hne : ∀ w < workers, s.status w ≠ .running := by
    intro w hw hs
    exact hend _ (.fail s w hw hs)
  have herr : s.errors = 0 := by
    by_cases he : 0 < s.errors
    · exact absurd (.readError s hm he) (hend _)
    · omega
  have hprog : ∀ w < workers, s.progress w = [] := by
    intro w hw
    cases hp : s.progress w with
    | nil => rfl
    | cons c rest => exact absurd (.readProgress s w c rest hw hm hp) (hend _)
  have hfin : ∀ w < workers, s.status w = .finished := by
    intro w hw
    cases hs : s.status w with
    | running => exact absurd hs (hne w hw)
    | finished => rfl
    | killed => exact absurd hs (hkill w hw)
    | failed =>
      have := h.errors (by rw [hm]; simp) w hw hs
      omega
  have hall : ∀ w < workers, s.tracker w = items w ∧ s.heard = true := fun w hw => (h.last w hw (hfin w hw)).1 (hprog w hw)
  refine h.looping hm (hall 0 hn).2 ?_
  simp only [workerSum]
  congr 1
  apply List.map_congr_left
  intro w hw
  exact (hall w (List.mem_range.1 hw)).1

/-- C50, together: if no worker fails or is killed, an execution that can go no further has returned; if one that has items fails and none is
killed, it has raised. -/
theorem c50_outcome {workers : Nat} {items : Nat → Nat} {s : MainState} (hn : 0 < workers) (hst : MainSteps workers items .init s)
    (hend : ∀ t, ¬ MainStep workers items s t) :
    ((∀ w < workers, s.status w = .finished) → s.main = .returned) ∧
    ((∀ w < workers, s.status w ≠ .killed) → (∃ w < workers, 0 < items w ∧ s.status w = .failed) → s.main = .raised) := by
  have h := mainInv_steps hst
  constructor
  · intro hf
    have hl := c50_ends hn hst (fun w hw e => by rw [hf w hw] at e; cases e) hend
    cases hm : s.main with
    | looping => exact absurd hm hl
    | returned => rfl
    | raised =>
      obtain ⟨w, hw, e⟩ := h.cause (Or.inr hm)
      rw [hf w hw] at e
      cases e
  · rintro hk ⟨w, hw, hi, hf⟩
    have hl := c50_ends hn hst hk hend
    have hr := c50_failure_never_returns hst w hw hi (Or.inl hf)
    cases hm : s.main with
    | looping => exact absurd hm hl
    | returned => exact absurd hm hr
    | raised => rfl

/-- A worker that is running can always go on without failing: to its next item or to its end. -/
theorem c50_worker_proceeds {workers : Nat} {items : Nat → Nat} {s : MainState} (hst : MainSteps workers items .init s)
    (w : Nat) (hw : w < workers) (hs : s.status w = .running) :
    ∃ t, MainStep workers items s t ∧ ∀ v, t.status v ≠ .failed ∨ s.status v = .failed := by
  rcases Nat.lt_or_ge (s.counter w) (items w) with h | h
  · exact ⟨_, .work s w hw hs h, fun v => by simp only; cases s.status v <;> simp⟩
  · have := (mainInv_steps hst).counter w
    refine ⟨_, .finish s w hw hs (by omega), fun v => ?_⟩
    simp only [upd]
    split
    · simp
    · cases s.status v <;> simp

/-- It raises only because a worker failed. -/
theorem c50_raises_only_on_failure {workers : Nat} {items : Nat → Nat} {s : MainState} (hst : MainSteps workers items .init s)
    (hr : s.main = .raised) : ∃ w < workers, s.status w = .failed := (mainInv_steps hst).cause (Or.inr hr)

/-- **A killed worker hangs the run**: once a worker with items is killed and the others are through, the main process looks at empty queues
for ever (`processing/data_processor.py:1235-1240` finds no error and goes on). -/
theorem c50_killed_hangs : ∃ s, MainSteps 1 (fun _ => 1) .init s ∧ s.main = .looping ∧ ∀ t, ¬ MainStep 1 (fun _ => 1) s t := by
  refine ⟨_, .tail (.refl _) (.kill .init 0 (by decide) rfl), rfl, ?_⟩
  intro t ht
  have h0 : ∀ w, w < 1 → w = 0 := fun w hw => by omega
  cases ht with
  | work w hw hs hc => rw [h0 w hw] at hs; simp [upd] at hs
  | workTell w hw hs hc => rw [h0 w hw] at hs; simp [upd] at hs
  | finish w hw hs hc => rw [h0 w hw] at hs; simp [upd] at hs
  | fail w hw hs => rw [h0 w hw] at hs; simp [upd] at hs
  | kill w hw hs => rw [h0 w hw] at hs; simp [upd] at hs
  | readError hm he => simp [MainState.init] at he
  | readProgress w c rest hw hm hp => simp [MainState.init] at hp

/-- **The failure of a worker without items may go unnoticed**: the others account for all items. If the worker failed before it had started its own processes,
the run then goes on to the index; otherwise the main process waits for it for ever (`c88_join_hangs`). -/
theorem c50_idle_failure_missed : ∃ s, MainSteps 2 (fun w => if w = 0 then 1 else 0) .init s ∧ s.main = .returned ∧
    s.status 1 = .failed := by
  refine ⟨_, .tail (.tail (.tail (.tail (.refl _) (.fail .init 1 (by decide) rfl)) (.work _ 0 (by decide) rfl (by decide)))
    (.finish _ 0 (by decide) rfl rfl)) (.readProgress _ 0 1 [] (by decide) rfl rfl), ?_, rfl⟩
  rfl

/-- A run of two workers that ends well. -/
example : ∃ s, MainSteps 2 (fun _ => 1) .init s ∧ s.main = .returned := by
  refine ⟨_, .tail (.tail (.tail (.tail (.tail (.tail (.refl _) (.work .init 0 (by decide) rfl (by decide)))
    (.finish _ 0 (by decide) rfl rfl)) (.work _ 1 (by decide) rfl (by decide))) (.finish _ 1 (by decide) rfl rfl))
    (.readProgress _ 0 1 [] (by decide) rfl rfl)) (.readProgress _ 1 1 [] (by decide) rfl rfl), ?_⟩
  rfl

end LitData.Props
