import Verif.Model.Children
import Verif.Props.Processes

/-! Property C88: which processes of `optimize` and `map` are left behind when a run returns, fails or is interrupted. -/

namespace LitData.Props
open LitData

variable {σ C : Type} {cfg : PipeCfg σ C} {remote0 : FName → Option C}

/-- The main process plays no part in the events of downloaders, uploaders and removers. -/
theorem child_pstep {s t : PWorld σ C} (h : ChildStep cfg s t) : PStep cfg { s with main := .waiting } { t with main := .waiting } := by
  cases h with
  | download w d i q hw hd hq => exact PStep.download { s with main := .waiting } w d i q (Or.inl rfl) hw hd hq
  | downloadEnd w d q hw hd hq => exact PStep.downloadEnd { s with main := .waiting } w d q (Or.inl rfl) hw hd hq
  | upload w u n c q hw hu ha hq hd => exact PStep.upload { s with main := .waiting } w u n c q (Or.inl rfl) hw hu ha hq hd
  | uploadLost w u n q hw hu ha hf hc hq => exact PStep.uploadLost { s with main := .waiting } w u n q (Or.inl rfl) hw hu ha hf hc hq
  | uploaderDies w u n q hw hu ha hf hc hq => exact PStep.uploaderDies { s with main := .waiting } w u n q (Or.inl rfl) hw hu ha hf hc hq
  | uploadEnd w u q hw hu ha hq => exact PStep.uploadEnd { s with main := .waiting } w u q (Or.inl rfl) hw hu ha hq
  | removeInputs w v i q hw hr hq => exact PStep.removeInputs { s with main := .waiting } w v i q (Or.inl rfl) hw hr hq
  | removeChunk w n q hw hr hq => exact PStep.removeChunk { s with main := .waiting } w n q (Or.inl rfl) hw hr hq
  | removeEnd w q hw hr hq => exact PStep.removeEnd { s with main := .waiting } w q (Or.inl rfl) hw hr hq

/-- They leave the workers where they are. -/
theorem child_phase {s t : PWorld σ C} (h : ChildStep cfg s t) : t.main = s.main ∧ ∀ v, (t.ws v).phase = (s.ws v).phase := by
  cases h <;> refine ⟨rfl, fun v => ?_⟩ <;> rw [set_ws] <;> split <;> first | rfl | (rename_i e; subst e; rfl)

/-- Every sequence of events of downloaders, uploaders and removers ends. -/
theorem child_wf : WellFounded fun t s : PWorld σ C => ChildStep cfg s t := by
  have h : WellFounded fun t s : PWorld σ C => PStep cfg { s with main := .waiting } { t with main := .waiting } :=
    InvImage.wf (fun s : PWorld σ C => ({ s with main := .waiting } : PWorld σ C)) pstep_wf
  exact Subrelation.wf (fun {_ _} hst => child_pstep hst) h

theorem kids_loc (hU : 0 < cfg.uploaders) {s t : PWorld σ C} (h : ∀ v, v < cfg.workers → WLoc cfg v (s.ws v)) (hst : ChildStep cfg s t) :
    ∀ v, v < cfg.workers → WLoc cfg v (t.ws v) :=
  loc_step (s := { s with main := .waiting }) (t := { t with main := .waiting }) hU h (child_pstep hst)

theorem kids_run (hU : 0 < cfg.uploaders) {s t : PWorld σ C} (h : ∀ v, v < cfg.workers → WLoc cfg v (s.ws v)) (hst : ChildSteps cfg s t) :
    (∀ v, v < cfg.workers → WLoc cfg v (t.ws v)) ∧ t.main = s.main ∧ ∀ v, (t.ws v).phase = (s.ws v).phase := by
  induction hst with
  | refl => exact ⟨h, rfl, fun _ => rfl⟩
  | step _ hs ih =>
    obtain ⟨h1, h2, h3⟩ := ih
    obtain ⟨e1, e2⟩ := child_phase hs
    exact ⟨kids_loc hU h1 hs, e1.trans h2, fun v => (e2 v).trans (h3 v)⟩

/-- No new files. -/
theorem kids_emitted {s t : PWorld σ C} (hst : ChildSteps cfg s t) : ∀ v, (t.ws v).emitted = (s.ws v).emitted := by
  induction hst with
  | refl => exact fun _ => rfl
  | step _ hs ih =>
    intro v
    refine Eq.trans ?_ (ih v)
    cases hs <;> rw [set_ws] <;> split <;> first | rfl | (rename_i e; subst e; rfl)

theorem finv_main {s : PWorld σ C} (m : MainPhase) (h : FInv cfg remote0 s) : FInv cfg remote0 { s with main := m } :=
  ⟨h.sent, h.disk, h.left, h.old⟩

theorem kids_files (hU : 0 < cfg.uploaders) {owner : FName → Nat} (hn : NamesOk cfg owner) (hf : cfg.faulty = false) {s t : PWorld σ C}
    (h : ∀ v, v < cfg.workers → WLoc cfg v (s.ws v)) (hfi : FInv cfg remote0 s) (hst : ChildSteps cfg s t) : FInv cfg remote0 t := by
  induction hst with
  | refl => exact hfi
  | @step a b hs hst ih =>
    have h1 := finv_step (s := { a with main := .waiting }) hU hn (Or.inl hf) (kids_run hU h hs).1 (finv_main .waiting ih) (child_pstep hst)
    exact ⟨h1.sent, h1.disk, h1.left, h1.old⟩

/-- No downloader, uploader or remover can go on. -/
def Still (cfg : PipeCfg σ C) (s : PWorld σ C) : Prop := ∀ t, ¬ ChildStep cfg s t

/-- After any failure of a run the remaining processes come to rest. -/
theorem kids_settle (s : PWorld σ C) : ∃ t, ChildSteps cfg s t ∧ Still cfg t := by
  have key : ∀ t, ChildSteps cfg s t → ∃ u, ChildSteps cfg s u ∧ Still cfg u := by
    intro t
    induction t using (child_wf (cfg := cfg)).induction with
    | h t ih =>
      intro ht
      by_cases hend : Still cfg t
      · exact ⟨t, ht, hend⟩
      · simp only [Still, Classical.not_forall, Classical.not_not] at hend
        obtain ⟨u, hu⟩ := hend
        exact ih u hu (.step ht hu)
  exact key s (.refl s)

/-- A downloader that can go on does, until it ends. -/
theorem still_downloaders {s : PWorld σ C} (hs : Still cfg s) :
    ∀ w, w < cfg.workers → ∀ d, d < cfg.downloaders → (s.ws w).toDownload d = [] := by
  intro w hw d hd
  cases hq : (s.ws w).toDownload d with
  | nil => rfl
  | cons a q =>
    cases a with
    | none => exact absurd (ChildStep.downloadEnd s w d q hw hd hq) (hs _)
    | some i => exact absurd (ChildStep.download s w d i q hw hd hq) (hs _)

/-- The queue of an uploader that waits is empty. -/
theorem still_uploader {s : PWorld σ C} (hloc : ∀ v, v < cfg.workers → WLoc cfg v (s.ws v)) (hfi : FInv cfg remote0 s) (hs : Still cfg s)
    {w u : Nat} (hw : w < cfg.workers) (hu : u < cfg.uploaders) (ha : (s.ws w).upDone u = false) : (s.ws w).uploadQ u = [] := by
  cases hq : (s.ws w).uploadQ u with
  | nil => rfl
  | cons a q =>
    cases a with
    | none => exact absurd (ChildStep.uploadEnd s w u q hw hu ha hq) (hs _)
    | some n =>
      have hm : n ∈ queued cfg (s.ws w) := List.mem_flatMap.2 ⟨u, List.mem_range.2 hu, mem_somes.2 (hq ▸ List.mem_cons_self)⟩
      have he : n ∈ (s.ws w).emitted.map (·.1) := (hloc w hw).names.mem_iff.2 (List.mem_append_right _ hm)
      obtain ⟨f, hf1, rfl⟩ := List.mem_map.1 he
      exact absurd (ChildStep.upload s w u f.1 f.2 q hw hu ha hq (hfi.disk w hw f.1 f.2 hf1 hm)) (hs _)

/-- The queue of a remover that waits is empty. -/
theorem still_remover {s : PWorld σ C} (hs : Still cfg s) {w : Nat} (hw : w < cfg.workers) (ha : (s.ws w).removerDone = false) : (s.ws w).removeQ = [] := by
  cases hq : (s.ws w).removeQ with
  | nil => rfl
  | cons a q =>
    cases a with
    | none => exact absurd (ChildStep.removeEnd s w q hw ha hq) (hs _)
    | some r =>
      cases r with
      | inputs v i => exact absurd (ChildStep.removeInputs s w v i q hw ha hq) (hs _)
      | chunk n => exact absurd (ChildStep.removeChunk s w n q hw ha hq) (hs _)

/-- Every process that worker `w` has started has ended. -/
def KidsEnded (cfg : PipeCfg σ C) (s : PWorld σ C) (w : Nat) : Prop :=
  (∀ d, d < cfg.downloaders → (s.ws w).toDownload d = []) ∧ (∀ u, u < cfg.uploaders → (s.ws w).upDone u = true) ∧ (s.ws w).removerDone = true

theorem done_kids {s : PWorld σ C} {w : Nat} (hl : WLoc cfg w (s.ws w)) (hp : (s.ws w).phase = .done) : KidsEnded cfg s w := by
  refine ⟨?_, hl.upD (Or.inr hp), (hl.rmC hp).1⟩
  intro d hd
  rcases hl.tq d hd with h | ⟨l, h⟩
  · exact h
  · exfalso
    have hc := hl.count
    have hn := hl.late (by rw [hp]; simp) (by rw [hp]; simp)
    have h1 : nonesIn ((s.ws w).toDownload d) ≤ ((List.range cfg.downloaders).map fun d => nonesIn ((s.ws w).toDownload d)).sum :=
      le_sum_mem (List.mem_map.2 ⟨d, List.mem_range.2 hd, rfl⟩)
    rw [h, nonesIn_append, nonesIn_none] at h1
    omega

/-- **C88.** When nothing fails, a run of `optimize` or `map` that cannot go on has left no process behind: all workers have returned,
and every downloader, uploader and remover has ended. -/
theorem c88_returns_partial (hW : 0 < cfg.workers) (hD : 0 < cfg.downloaders) (hU : 0 < cfg.uploaders) {owner : FName → Nat} (hn : NamesOk cfg owner)
    (hf : cfg.faulty = false) (hdisj : PathsDisjoint cfg) (hjobs : JobsOk cfg) {s : PWorld σ C} (h : PReach cfg remote0 s) (hend : Final cfg s) :
    s.main = .indexed ∧ ∀ w, w < cfg.workers → (s.ws w).phase = .done ∧ KidsEnded cfg s w := by
  obtain ⟨h1, h2⟩ := c43_complete_partial hW hD hU hn hf hdisj hjobs h hend
  exact ⟨h1, fun w hw => ⟨h2 w hw, done_kids (loc_reach hD hU h w hw) (h2 w hw)⟩⟩

/-- **C88.** Even if the user's function fails or uploads get lost: the processes of a worker that has returned have ended. -/
theorem c88_worker_returned (hD : 0 < cfg.downloaders) (hU : 0 < cfg.uploaders) {s : PWorld σ C} (h : PReach cfg remote0 s) {w : Nat} (hw : w < cfg.workers)
    (hp : (s.ws w).phase = .done) : KidsEnded cfg s w := done_kids (loc_reach hD hU h w hw) hp

/-- **C88, violated.** Every run that fails because of the user's function, or because of a missing input file, leaves processes behind: the remover and, unless
copies fail, every uploader of the worker that failed, and of every other worker that was still in its loop, never end. -/
theorem c88_failure_leaks (hD : 0 < cfg.downloaders) (hU : 0 < cfg.uploaders) {s t : PWorld σ C} (h : PReach cfg remote0 s) (hst : ChildSteps cfg s t)
    {w : Nat} (hw : w < cfg.workers) (hp : (s.ws w).phase = .running ∨ (s.ws w).phase = .failed) :
    (t.ws w).removerDone = false ∧ (cfg.faulty = false → ∀ u, u < cfg.uploaders → (t.ws w).upDone u = false) := by
  obtain ⟨h1, _, h3⟩ := kids_run hU (loc_reach hD hU h) hst
  rw [← h3 w] at hp
  exact ⟨((h1 w hw).rmA (hp.imp_right Or.inl)).1, fun hf u hu => ((h1 w hw).upA hf hp u hu).1⟩

/-- With working uploads, a run that raises has a worker that failed. -/
theorem error_has_failed (hD : 0 < cfg.downloaders) (hU : 0 < cfg.uploaders) {owner : FName → Nat} (hn : NamesOk cfg owner) (hf : cfg.faulty = false)
    {s : PWorld σ C} (h : PReach cfg remote0 s) (hm : s.main = .error) : ∃ w, w < cfg.workers ∧ (s.ws w).phase = .failed := by
  cases h with
  | start => cases hm
  | @step s0 t hr hst =>
    have hloc := loc_reach hD hU hr
    have hfin := finv_reach hD hU hn (Or.inl hf) hr
    have hm0 := (step_main hst).1
    cases hst with
    | raise w hm' hw hp => exact ⟨w, hw, hp⟩
    | leftover n hm' hall ho hd =>
      exfalso
      obtain ⟨w, hw, h3⟩ := hfin.left n hd
      have hl := hloc w hw
      rcases h3 with h3 | h3
      · obtain ⟨u, hu, h3⟩ := List.mem_flatMap.1 h3
        rw [hl.upC hf (Or.inr (hall w hw)) u (List.mem_range.1 hu)] at h3
        cases h3
      · rw [(hl.rmC (hall w hw)).2] at h3
        cases h3
    | receive w c q hm' hq hs => exact absurd (hm'.symm.trans hm) (by simp)
    | receiveLast w c q hm' hq hs => cases hm
    | index hm' hall ho => cases hm
    | _ =>
      have hm' : s0.main = .error := hm
      rw [hm'] at hm0
      simp at hm0

/-- **C88, violated by every run that raises.** Some worker leaves all its uploaders and its remover behind for ever. -/
theorem c88_every_error_leaks (hD : 0 < cfg.downloaders) (hU : 0 < cfg.uploaders) {owner : FName → Nat} (hn : NamesOk cfg owner) (hf : cfg.faulty = false)
    {s : PWorld σ C} (h : PReach cfg remote0 s) (hm : s.main = .error) :
    ∃ w, w < cfg.workers ∧ ∀ t, ChildSteps cfg s t → (t.ws w).removerDone = false ∧ ∀ u, u < cfg.uploaders → (t.ws w).upDone u = false := by
  obtain ⟨w, hw, hp⟩ := error_has_failed hD hU hn hf h hm
  refine ⟨w, hw, fun t ht => ?_⟩
  obtain ⟨h1, h2⟩ := c88_failure_leaks hD hU h ht hw (Or.inr hp)
  exact ⟨h1, h2 hf⟩

/-- **C88.** Exactly the following is left when everything has come to rest after an error, with working uploads: the downloaders have ended; the uploaders of
a worker have ended if and only if it had sent all its files; its remover has ended if and only if it had joined its uploaders. Every file that was given to
an uploader before the error is in the output directory, and has been removed from the cache. -/
theorem c88_left_behind (hD : 0 < cfg.downloaders) (hU : 0 < cfg.uploaders) {owner : FName → Nat} (hn : NamesOk cfg owner) (hf : cfg.faulty = false)
    {s t : PWorld σ C} (h : PReach cfg remote0 s) (ht : ChildSteps cfg s t) (hs : Still cfg t) :
    (∀ w, w < cfg.workers → (∀ d, d < cfg.downloaders → (t.ws w).toDownload d = []) ∧
      (∀ u, u < cfg.uploaders → ((t.ws w).upDone u = true ↔ (s.ws w).phase ≠ .running ∧ (s.ws w).phase ≠ .failed)) ∧
      ((t.ws w).removerDone = true ↔ (s.ws w).phase = .removing ∨ (s.ws w).phase = .done)) ∧
    (∀ w, w < cfg.workers → ∀ f ∈ (s.ws w).emitted, t.remote f.1 = some f.2) ∧ ∀ n, t.disk n = none := by
  have hls := loc_reach hD hU h
  obtain ⟨hloc, _, hph⟩ := kids_run hU hls ht
  have hfin := kids_files (remote0 := remote0) hU hn hf hls (finv_reach hD hU hn (Or.inl hf) h) ht
  have hup : ∀ w, w < cfg.workers → ∀ u, u < cfg.uploaders → (t.ws w).uploadQ u = [] := by
    intro w hw u hu
    have hl := hloc w hw
    cases ha : (t.ws w).upDone u with
    | false => exact still_uploader hloc hfin hs hw hu ha
    | true =>
      cases hp : (t.ws w).phase with
      | running => have := (hl.upA hf (Or.inl hp) u hu).1; rw [ha] at this; cases this
      | failed => have := (hl.upA hf (Or.inr hp) u hu).1; rw [ha] at this; cases this
      | uploading =>
        rcases hl.upB hf hp u hu with ⟨_, h2⟩ | ⟨h1, _⟩
        · exact h2
        · rw [ha] at h1; cases h1
      | removing => exact hl.upC hf (Or.inl hp) u hu
      | done => exact hl.upC hf (Or.inr hp) u hu
  have hqueued : ∀ w, w < cfg.workers → queued cfg (t.ws w) = [] := by
    intro w hw
    unfold queued
    rw [List.flatMap_eq_nil_iff]
    intro u hu
    rw [hup w hw u (List.mem_range.1 hu)]
    rfl
  have hrm : ∀ w, w < cfg.workers → (t.ws w).removeQ = [] := by
    intro w hw
    have hl := hloc w hw
    cases ha : (t.ws w).removerDone with
    | false => exact still_remover hs hw ha
    | true =>
      cases hp : (t.ws w).phase with
      | running => have := (hl.rmA (Or.inl hp)).1; rw [ha] at this; cases this
      | failed => have := (hl.rmA (Or.inr (Or.inl hp))).1; rw [ha] at this; cases this
      | uploading => have := (hl.rmA (Or.inr (Or.inr hp))).1; rw [ha] at this; cases this
      | removing =>
        rcases hl.rmB hp with ⟨h1, _⟩ | ⟨_, h2⟩
        · rw [ha] at h1; cases h1
        · exact h2
      | done => exact (hl.rmC hp).2
  refine ⟨fun w hw => ⟨still_downloaders hs w hw, ?_, ?_⟩, ?_, ?_⟩
  · intro u hu
    have hl := hloc w hw
    rw [← hph w]
    have hq := hup w hw u hu
    cases hp : (t.ws w).phase with
    | running => simp [(hl.upA hf (Or.inl hp) u hu).1]
    | failed => simp [(hl.upA hf (Or.inr hp) u hu).1]
    | uploading =>
      rcases hl.upB hf hp u hu with ⟨h1, _⟩ | ⟨_, l, h2⟩
      · simp [h1]
      · rw [hq] at h2; simp at h2
    | removing => simp [hl.upD (Or.inl hp) u hu]
    | done => simp [hl.upD (Or.inr hp) u hu]
  · have hl := hloc w hw
    rw [← hph w]
    have hq := hrm w hw
    cases hp : (t.ws w).phase with
    | running => simp [(hl.rmA (Or.inl hp)).1]
    | failed => simp [(hl.rmA (Or.inr (Or.inl hp))).1]
    | uploading => simp [(hl.rmA (Or.inr (Or.inr hp))).1]
    | removing =>
      rcases hl.rmB hp with ⟨_, l, h2⟩ | ⟨h1, _⟩
      · rw [hq] at h2; simp at h2
      · simp [h1]
    | done => simp [(hl.rmC hp).1]
  · intro w hw f hf'
    have hl := hloc w hw
    have he : (t.ws w).emitted = (s.ws w).emitted := kids_emitted ht w
    rw [← he] at hf'
    refine hfin.sent w hw f.1 f.2 hf' ?_
    have := hl.names.mem_iff.1 (List.mem_map_of_mem (f := (·.1)) hf')
    rw [hqueued w hw, List.append_nil] at this
    exact this
  · intro n
    cases hd : t.disk n with
    | none => rfl
    | some c =>
      exfalso
      obtain ⟨w, hw, h3⟩ := hfin.left n (by rw [hd]; simp)
      rcases h3 with h3 | h3
      · rw [hqueued w hw] at h3; cases h3
      · rw [hrm w hw] at h3; cases h3

/-- **C88, violated.** If a worker fails and the main process has already stopped reading messages (the worker had no inputs), the main process waits for ever:
it joins the worker, and the worker joins its remover. The files are not indexed and no exception is raised. -/
theorem c88_join_hangs {s t : PWorld σ C} {w : Nat} (hw : w < cfg.workers) (hm : s.main = .joining) (hp : (s.ws w).phase = .failed) (hst : PStep cfg s t) :
    t.main = .joining ∧ (t.ws w).phase = .failed := by
  cases hst with
  | receive v c q hm' hq hs => rw [hm] at hm'; cases hm'
  | receiveLast v c q hm' hq hs => rw [hm] at hm'; cases hm'
  | raise v hm' hv hpv => rw [hm] at hm'; cases hm'
  | leftover n hm' hall ho hd => have := hall w hw; rw [hp] at this; cases this
  | index hm' hall ho => have := hall w hw; rw [hp] at this; cases this
  | _ =>
    refine ⟨hm, ?_⟩
    rw [set_ws]
    split
    · rename_i e
      subst e
      first | rfl | exact hp | (rename_i hpv _ _ _; rw [hp] at hpv; cases hpv) | grind
    · exact hp

/-- After the signal: the workers keep their invariant, and a worker that has seen the message is still in its loop as far as its children know. -/
theorem stop_inv (hU : 0 < cfg.uploaders) {x y : Stopped σ C} (hst : StopSteps cfg x y)
    (h : (∀ v, v < cfg.workers → WLoc cfg v (x.s.ws v)) ∧ ∀ v, x.flag v ≠ .gone ∧ (x.flag v = .stopping → (x.s.ws v).phase = .running)) :
    (∀ v, v < cfg.workers → WLoc cfg v (y.s.ws v)) ∧ ∀ v, y.flag v ≠ .gone ∧ (y.flag v = .stopping → (y.s.ws v).phase = .running) := by
  induction hst with
  | refl => exact h
  | @step y z _ hs ih =>
    obtain ⟨h1, h2⟩ := ih
    cases hs with
    | child t hc =>
      exact ⟨kids_loc hU h1 hc, fun v => ⟨(h2 v).1, fun hf => by
        show (t.ws v).phase = _
        rw [(child_phase hc).2 v]; exact (h2 v).2 hf⟩⟩
    | work t hp hm hl hk =>
      exact ⟨loc_step (s := { y.s with main := .waiting }) hU h1 hp, fun v => ⟨(h2 v).1, fun hf => by
        show (t.ws v).phase = _
        have hf' : y.flag v = .stopping := hf
        rw [hk v (by rw [hf']; simp)]; exact (h2 v).2 hf⟩⟩
    | stop w hw hg hp hc =>
      refine ⟨h1, fun v => ?_⟩
      show upd y.flag w .stopping v ≠ .gone ∧ (upd y.flag w .stopping v = .stopping → (y.s.ws v).phase = .running)
      by_cases e : v = w
      · subst e; rw [upd_same]; exact ⟨by simp, fun _ => hp⟩
      · rw [upd_other _ _ e]; exact h2 v
    | leave w hw hg hu hd hr =>
      exfalso
      have := ((h1 w hw).rmA (Or.inl ((h2 w).2 hg))).1
      rw [this] at hr
      cases hr

/-- **C88, violated.** After an interrupt of the main process no worker that has received the stop message ever ends, and neither do its remover and, unless copies fail, its
uploaders: `_terminate` joins them, but they are only told to end when all inputs are handled. -/
theorem c88_interrupt_hangs (hD : 0 < cfg.downloaders) (hU : 0 < cfg.uploaders) {s : PWorld σ C} (h : PReach cfg remote0 s) {y : Stopped σ C}
    (hst : StopSteps cfg ⟨s, fun _ => .going⟩ y) (w : Nat) (hw : w < cfg.workers) :
    y.flag w ≠ .gone ∧ (y.flag w = .stopping → (y.s.ws w).removerDone = false ∧ (cfg.faulty = false → ∀ u, u < cfg.uploaders → (y.s.ws w).upDone u = false)) := by
  obtain ⟨h1, h2⟩ := stop_inv hU hst ⟨loc_reach hD hU h, fun v => ⟨by simp, fun hf => by cases hf⟩⟩
  refine ⟨(h2 w).1, fun hf => ?_⟩
  have hp := (h2 w).2 hf
  exact ⟨((h1 w hw).rmA (Or.inl hp)).1, fun hff u hu => ((h1 w hw).upA hff (Or.inl hp) u hu).1⟩

/-- Two workers with two inputs each, without input directory; the second input of worker 0 raises. Every other input gives two samples, and
chunks hold one sample. -/
def failDemo : PipeCfg (WriterState × Nat) (List WItem) where
  workers := 2
  downloaders := 1
  uploaders := 2
  inputDir := false
  outPath := true
  cloud := false
  faulty := false
  items := fun _ => 2
  paths := fun _ _ => []
  job := fun w => writerJob ⟨0, 1⟩ none w 0 fun i => if w = 0 && i == 1 then none else some [⟨[w.toUInt8, i.toUInt8], none⟩, ⟨[i.toUInt8], none⟩]

/-- The names of its files are as in `optimize`. -/
theorem failDemo_names : ∃ owner, NamesOk failDemo owner :=
  writerJob_names (cfg := failDemo) ⟨0, 1⟩ none id (fun _ => 0)
    (fun w i => if w = 0 && i == 1 then none else some [⟨[w.toUInt8, i.toUInt8], none⟩, ⟨[i.toUInt8], none⟩]) (fun _ _ _ _ h => h) (fun _ _ => rfl)

/-- A run of `failDemo` up to the exception. -/
theorem failDemo_error : ∃ s, PReach failDemo (fun _ => none) s ∧ s.main = .error ∧ (s.ws 0).phase = .failed ∧ (s.ws 1).phase = .running ∧
    (s.ws 0).emitted.length = 1 := by
  have h1 := PReach.step (.start (cfg := failDemo) (remote0 := fun _ => none))
    (PStep.process _ 0 0 [some 1, none] _ _ false (Or.inl rfl) (by decide) rfl rfl (fun h => by cases h) rfl (fun h => by cases h))
  have h2 := PReach.step h1 (PStep.processFail _ 0 1 [none] (Or.inl rfl) (by decide) rfl rfl (Or.inr rfl))
  exact ⟨_, .step h2 (PStep.raise _ 0 rfl (by decide) rfl), rfl, rfl, rfl, rfl⟩

/-- After it, both workers leave all their uploaders and removers behind. -/
example : ∃ s, PReach failDemo (fun _ => none) s ∧ s.main = .error ∧ ∀ t, ChildSteps failDemo s t → ∀ w, w < 2 →
    (t.ws w).removerDone = false ∧ (t.ws w).upDone 0 = false ∧ (t.ws w).upDone 1 = false := by
  obtain ⟨s, h1, h2, h3, h4, _⟩ := failDemo_error
  refine ⟨s, h1, h2, fun t ht w hw => ?_⟩
  have hp : (s.ws w).phase = .running ∨ (s.ws w).phase = .failed := by
    rcases (by omega : w = 0 ∨ w = 1) with rfl | rfl
    · exact Or.inr h3
    · exact Or.inl h4
  obtain ⟨a, b⟩ := c88_failure_leaks (by decide) (by decide) h1 ht hw hp
  exact ⟨a, b rfl 0 (by decide), b rfl 1 (by decide)⟩

/-- And there is such a state of rest, in which the chunk that worker 0 had written is in the output directory. -/
example : ∃ s t, PReach failDemo (fun _ => none) s ∧ s.main = .error ∧ ChildSteps failDemo s t ∧ Still failDemo t ∧
    ((t.ws 0).upDone 0 = false) ∧ ∃ f, (s.ws 0).emitted = [f] ∧ t.remote f.1 = some f.2 := by
  obtain ⟨s, h1, h2, h3, _, he⟩ := failDemo_error
  obtain ⟨owner, hn⟩ := failDemo_names
  obtain ⟨t, ht, hs⟩ := kids_settle (cfg := failDemo) s
  obtain ⟨h5, h6, _⟩ := c88_left_behind (by decide) (by decide) hn rfl h1 ht hs
  refine ⟨s, t, h1, h2, ht, hs, ?_, ?_⟩
  · cases ha : (t.ws 0).upDone 0 with
    | false => rfl
    | true => exact absurd h3 (((h5 0 (by decide)).2.1 0 (by decide)).1 ha).2
  · match hl : (s.ws 0).emitted with
    | [f] => exact ⟨f, rfl, h6 0 (by decide) f (by rw [hl]; simp)⟩
    | [] => rw [hl] at he; simp at he
    | _ :: _ :: _ => rw [hl] at he; simp at he

/-- An interrupt after the first input: the worker has seen the message. -/
example : ∃ y, StopSteps failDemo ⟨startPWorld failDemo (fun _ => none), fun _ => .going⟩ y ∧ y.flag 0 = .stopping := by
  have h0 := StopSteps.refl (cfg := failDemo) ⟨startPWorld failDemo (fun _ => none), fun _ => .going⟩
  have h1 := StopSteps.step h0 (StopStep.work _ _
    (PStep.process _ 0 0 [some 1, none] _ _ false (Or.inl rfl) (by decide) rfl rfl (fun h => by cases h) rfl (fun h => by cases h)) rfl (Nat.le_refl _)
    (fun v hv => absurd rfl hv))
  exact ⟨_, .step h1 (StopStep.stop _ 0 (by decide) rfl rfl (by decide)), rfl⟩

/-- One worker with an input and one without, whose `cache.done()` raises. -/
def idleFailDemo : PipeCfg Nat Nat where
  workers := 2
  downloaders := 1
  uploaders := 1
  inputDir := false
  outPath := true
  cloud := false
  faulty := false
  items := fun w => if w = 0 then 1 else 0
  paths := fun _ _ => []
  job := fun w => ⟨0, fun k _ => some (k, []), fun _ => if w = 0 then some [] else none⟩

/-- **C88.** The state of `c88_join_hangs` occurs: the worker without inputs fails, and the other reports all inputs. -/
theorem c88_join_hangs_occurs : ∃ s, PReach idleFailDemo (fun _ => none) s ∧ s.main = .joining ∧ (s.ws 1).phase = .failed := by
  have h0 := PReach.step (.start (cfg := idleFailDemo) (remote0 := fun _ => none))
    (PStep.finishFail _ 1 [] (Or.inl rfl) (by decide) rfl rfl rfl rfl)
  have h1 := PReach.step h0
    (PStep.process _ 0 0 [none] 0 [] false (Or.inl rfl) (by decide) rfl rfl (fun h => by cases h) rfl (fun h => by cases h))
  have h2 := PReach.step h1 (PStep.finishInputs _ 0 [] [] (Or.inl rfl) (by decide) rfl rfl rfl rfl)
  have h4 := PReach.step h2 (PStep.uploadEnd _ 0 0 [] (Or.inl rfl) (by decide) (by decide) rfl rfl)
  have h5 := PReach.step h4 (PStep.joinUploaders _ 0 (Or.inl rfl) (by decide) rfl (fun u hu => by
    have : u = 0 := by simp only [idleFailDemo] at hu; omega
    subst this; rfl))
  have h7 := PReach.step h5 (PStep.removeEnd _ 0 [] (Or.inl rfl) (by decide) rfl rfl)
  have h8 := PReach.step h7 (PStep.finish _ 0 (Or.inl rfl) (by decide) rfl rfl)
  have h9 := PReach.step h8 (PStep.receiveLast _ 0 1 [] rfl rfl rfl)
  exact ⟨_, h9, rfl, rfl⟩

end LitData.Props
