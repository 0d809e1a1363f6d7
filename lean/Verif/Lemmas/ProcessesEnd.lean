import Verif.Lemmas.ProcessesRun

namespace LitData
open LitData.Props

variable {σ C : Type} {cfg : PipeCfg σ C} {remote0 : FName → Option C}

/-- Different inputs use different files. -/
def PathsDisjoint (cfg : PipeCfg σ C) : Prop :=
  ∀ w v i j, w < cfg.workers → v < cfg.workers → i < cfg.items w → j < cfg.items v → (w ≠ v ∨ i ≠ j) → ∀ p ∈ cfg.paths w i, p ∉ cfg.paths v j

/-- The files of the inputs that are ready are in the cache. -/
def CInv (cfg : PipeCfg σ C) (s : PWorld σ C) : Prop :=
  ∀ w, w < cfg.workers → ∀ i, some i ∈ (s.ws w).ready → ∀ p ∈ cfg.paths w i, s.cached p = true

theorem CInv.frame_set {s : PWorld σ C} (h : CInv cfg s) {w : Nat} {x : PWorker σ C} (t : PWorld σ C) (ht : t.ws = upd s.ws w x) (hc : t.cached = s.cached)
    (hr : ∀ i, some i ∈ x.ready → some i ∈ (s.ws w).ready) : CInv cfg t := by
  intro v hv i hi p hp
  rw [hc]
  rw [ht] at hi
  by_cases hvw : v = w
  · subst hvw; rw [upd_same] at hi; exact h v hv i (hr i hi) p hp
  · rw [upd_other _ _ hvw] at hi; exact h v hv i hi p hp

theorem WLoc.lt {w : Nat} {x : PWorker σ C} (h : WLoc cfg w x) {i : Nat} (hi : i ∈ x.processed ∨ some i ∈ x.ready) : i < cfg.items w := by
  refine List.mem_range.1 (h.perm.mem_iff.1 ?_)
  rcases hi with hi | hi
  · exact List.mem_append_left _ (List.mem_append_left _ hi)
  · exact List.mem_append_left _ (List.mem_append_right _ (mem_somes.2 hi))

theorem WLoc.apart {w : Nat} {x : PWorker σ C} (h : WLoc cfg w x) {i j : Nat} (hi : i ∈ x.processed) (hj : some j ∈ x.ready) : i ≠ j := by
  have hnd := h.perm.nodup_iff.2 List.nodup_range
  have := (List.nodup_append.1 (List.nodup_append.1 hnd).1).2.2
  exact this i hi j (mem_somes.2 hj)

theorem cinv_step (hdisj : PathsDisjoint cfg) {s t : PWorld σ C} (hloc : ∀ v, v < cfg.workers → WLoc cfg v (s.ws v)) (h : CInv cfg s) (hst : PStep cfg s t) :
    CInv cfg t := by
  cases hst with
  | download w d i q hm hw hd hq =>
    intro v hv k hk p hp
    simp only [PWorld.set] at hk ⊢
    by_cases hmem : p ∈ cfg.paths w i
    · simp [hmem]
    · rw [if_neg hmem]
      by_cases hvw : v = w
      · subst hvw
        rw [upd_same] at hk
        simp only [List.mem_append, List.mem_singleton, Option.some.injEq] at hk
        rcases hk with hk | hk
        · exact h v hv k hk p hp
        · rw [hk] at hp; exact absurd hp hmem
      · rw [upd_other _ _ hvw] at hk; exact h v hv k hk p hp
  | downloadEnd w d q hm hw hd hq => exact h.frame_set _ rfl rfl (fun i hi => by simpa using hi)
  | process w i q st files report hm hw hp hq hf hj hr => exact h.frame_set _ rfl rfl (fun k hk => by rw [hq]; exact List.mem_cons_of_mem _ hk)
  | processFail w i q hm hw hp hq hf => exact h.frame_set _ rfl rfl (fun _ => id)
  | countNone w q hm hw hp hq hn => exact h.frame_set _ rfl rfl (fun k hk => by rw [hq]; exact List.mem_cons_of_mem _ hk)
  | finishInputs w q files hm hw hp hq hn' hj => exact h.frame_set _ rfl rfl (fun k hk => by rw [hq]; exact List.mem_cons_of_mem _ hk)
  | finishFail w q hm hw hp hq hn hj => exact h.frame_set _ rfl rfl (fun _ => id)
  | upload w u n c q hm hw hu hal hq hd => exact h.frame_set _ rfl rfl (fun _ => id)
  | uploadLost w u n q hm hw hu hal hf hc hq => exact h.frame_set _ rfl rfl (fun _ => id)
  | uploaderDies w u n q hm hw hu hal hf hc hq => exact h.frame_set _ rfl rfl (fun _ => id)
  | uploadEnd w u q hm hw hu hal hq => exact h.frame_set _ rfl rfl (fun _ => id)
  | joinUploaders w hm hw hp hall => exact h.frame_set _ rfl rfl (fun _ => id)
  | removeInputs w v i q hm hw hr hq =>
    obtain ⟨hv, hi⟩ := (hloc w hw).reqI v i (by rw [hq]; exact List.mem_cons_self)
    subst hv
    intro u hu k hk p hp
    simp only [PWorld.set] at hk ⊢
    have hk' : some k ∈ (s.ws u).ready := by
      by_cases huv : u = v
      · subst huv; rw [upd_same] at hk; exact hk
      · rw [upd_other _ _ huv] at hk; exact hk
    have hne : u ≠ v ∨ k ≠ i := by
      by_cases huv : u = v
      · subst huv; right; exact ((hloc u hu).apart hi hk').symm
      · exact Or.inl huv
    rw [if_neg (hdisj u v k i hu hw ((hloc u hu).lt (Or.inr hk')) ((hloc v hw).lt (Or.inl hi)) hne p hp)]
    exact h u hu k hk' p hp
  | removeChunk w n q hm hw hr hq => exact h.frame_set _ rfl rfl (fun _ => id)
  | removeEnd w q hm hw hr hq => exact h.frame_set _ rfl rfl (fun _ => id)
  | finish w hm hw hp hr => exact h.frame_set _ rfl rfl (fun _ => id)
  | receive w c q hm hq hs => exact h
  | receiveLast w c q hm hq hs => exact h
  | raise w hm hw hp => exact h
  | leftover n hm hall ho hd => exact h
  | index hm hall ho => exact h

theorem cinv_reach (hD : 0 < cfg.downloaders) (hU : 0 < cfg.uploaders) (hdisj : PathsDisjoint cfg) (hi : cfg.inputDir = true) {s : PWorld σ C} (h : PReach cfg remote0 s) :
    CInv cfg s := by
  induction h with
  | start => intro w hw i hm; simp [startPWorld, startPWorker, hi] at hm
  | step hr hst ih => exact cinv_step hdisj (loc_reach hD hU hr) ih hst

/-- What holds of the reports. -/
structure RInv' (cfg : PipeCfg σ C) (s : PWorld σ C) : Prop where
  prog : ∀ m ∈ s.progress, m.1 < cfg.workers ∧ (m.2 + 2 < cfg.items m.1 ∨ ((s.ws m.1).phase = .done ∧ m.2 = cfg.items m.1))
  track : ∀ w, w < cfg.workers → s.tracker w = 0 ∨ s.tracker w + 2 < cfg.items w ∨ ((s.ws w).phase = .done ∧ s.tracker w = cfg.items w)
  last : ∀ w, w < cfg.workers → (s.ws w).phase = .done →
    ((s.progress.filter fun m => m.1 == w) = [] ∧ s.tracker w = cfg.items w ∧ s.received = true) ∨
    ∃ l, (s.progress.filter fun m => m.1 == w) = l ++ [(w, cfg.items w)]
  wait : s.main = .waiting → s.received = true → trackerSum cfg.workers s.tracker ≠ totalItems cfg
  join : s.main = .joining ∨ s.main = .indexed → trackerSum cfg.workers s.tracker = totalItems cfg

theorem RInv'.frame_set {s : PWorld σ C} (h : RInv' cfg s) {w : Nat} {x : PWorker σ C} (t : PWorld σ C) (ht : t.ws = upd s.ws w x)
    (hp : t.progress = s.progress) (hk : t.tracker = s.tracker) (hr : t.received = s.received) (hm : t.main = s.main)
    (hph : x.phase = .done ↔ (s.ws w).phase = .done) : RInv' cfg t := by
  have hiff : ∀ v, (t.ws v).phase = .done ↔ (s.ws v).phase = .done := by
    intro v
    rw [ht]
    by_cases hvw : v = w
    · subst hvw; rw [upd_same]; exact hph
    · rw [upd_other _ _ hvw]
  refine ⟨?_, ?_, ?_, ?_, ?_⟩
  · intro m hmem
    rw [hp] at hmem
    rw [hiff]
    exact h.prog m hmem
  · intro v hv
    rw [hk, hiff]; exact h.track v hv
  · intro v hv hd
    rw [hp, hk, hr]
    exact h.last v hv ((hiff v).1 hd)
  · rw [hm, hr, hk]; exact h.wait
  · rw [hm, hk]; exact h.join

theorem rinv_step {s t : PWorld σ C} (hloc : ∀ v, v < cfg.workers → WLoc cfg v (s.ws v)) (h : RInv' cfg s) (hst : PStep cfg s t) : RInv' cfg t := by
  cases hst with
  | download w d i q hm hw hd hq => exact h.frame_set _ rfl rfl rfl rfl rfl Iff.rfl
  | downloadEnd w d q hm hw hd hq => exact h.frame_set _ rfl rfl rfl rfl rfl Iff.rfl
  | process w i q st files report hm hw hp hq hf hj hr =>
    cases report with
    | false => exact h.frame_set _ rfl rfl rfl rfl rfl Iff.rfl
    | true =>
      have hphs : ∀ v, ((upd s.ws w { s.ws w with
          ready := q, st := st, counter := (s.ws w).counter + 1, processed := (s.ws w).processed ++ [i],
          emitted := (s.ws w).emitted ++ files,
          uploadQ := upd (s.ws w).uploadQ ((s.ws w).counter % cfg.uploaders)
            ((s.ws w).uploadQ ((s.ws w).counter % cfg.uploaders) ++ files.map fun f : FName × C => some f.1),
          removeQ := if cfg.inputDir then (s.ws w).removeQ ++ [some (RemoveReq.inputs w i)] else (s.ws w).removeQ }) v).phase = (s.ws v).phase := by
        intro v
        by_cases hvw : v = w
        · subst hvw; rw [upd_same]
        · rw [upd_other _ _ hvw]
      refine ⟨?_, ?_, ?_, h.wait, h.join⟩
      · intro m hmem
        simp only [PWorld.set, if_true] at hmem ⊢
        rw [hphs]
        rcases List.mem_append.1 hmem with hmem | hmem
        · exact h.prog m hmem
        · rw [List.mem_singleton] at hmem
          subst hmem
          exact ⟨hw, Or.inl (hr rfl)⟩
      · intro v hv
        simp only [PWorld.set]
        rw [hphs]
        exact h.track v hv
      · intro v hv hd
        simp only [PWorld.set, if_true] at hd ⊢
        rw [hphs] at hd
        have hvw : (w == v) = false := by
          simp only [beq_eq_false_iff_ne]
          intro e
          subst e
          rw [hp] at hd; cases hd
        rw [List.filter_append]
        simp only [List.filter_cons, hvw, List.filter_nil]
        simpa using h.last v hv hd
  | processFail w i q hm hw hp hq hf => exact h.frame_set _ rfl rfl rfl rfl rfl (by rw [hp]; simp)
  | countNone w q hm hw hp hq hn => exact h.frame_set _ rfl rfl rfl rfl rfl Iff.rfl
  | finishInputs w q files hm hw hp hq hn' hj => exact h.frame_set _ rfl rfl rfl rfl rfl (by rw [hp]; simp)
  | finishFail w q hm hw hp hq hn hj => exact h.frame_set _ rfl rfl rfl rfl rfl (by rw [hp]; simp)
  | upload w u n c q hm hw hu hal hq hd => exact h.frame_set _ rfl rfl rfl rfl rfl Iff.rfl
  | uploadLost w u n q hm hw hu hal hf hc hq => exact h.frame_set _ rfl rfl rfl rfl rfl Iff.rfl
  | uploaderDies w u n q hm hw hu hal hf hc hq => exact h.frame_set _ rfl rfl rfl rfl rfl Iff.rfl
  | uploadEnd w u q hm hw hu hal hq => exact h.frame_set _ rfl rfl rfl rfl rfl Iff.rfl
  | joinUploaders w hm hw hp hall => exact h.frame_set _ rfl rfl rfl rfl rfl (by rw [hp]; simp)
  | removeInputs w v i q hm hw hr hq => exact h.frame_set _ rfl rfl rfl rfl rfl Iff.rfl
  | removeChunk w n q hm hw hr hq => exact h.frame_set _ rfl rfl rfl rfl rfl Iff.rfl
  | removeEnd w q hm hw hr hq => exact h.frame_set _ rfl rfl rfl rfl rfl Iff.rfl
  | finish w hm hw hp hr =>
    have hcnt : (s.ws w).counter = cfg.items w := by
      have hall := (hloc w hw).all_processed (by rw [hp]; simp) (by rw [hp]; simp)
      rw [(hloc w hw).counter, hall.1.length_eq, List.length_range]
    have hphs : ∀ v, v ≠ w → (upd s.ws w { s.ws w with phase := .done } v).phase = (s.ws v).phase := fun v hv => by rw [upd_other _ _ hv]
    refine ⟨?_, ?_, ?_, h.wait, h.join⟩
    · intro m hmem
      simp only [PWorld.set] at hmem ⊢
      rcases List.mem_append.1 hmem with hmem | hmem
      · obtain ⟨h1, h2⟩ := h.prog m hmem
        refine ⟨h1, h2.imp id (fun h3 => ⟨?_, h3.2⟩)⟩
        by_cases hmw : m.1 = w
        · rw [hmw, upd_same]
        · rw [hphs _ hmw]; exact h3.1
      · rw [List.mem_singleton] at hmem
        subst hmem
        exact ⟨hw, Or.inr ⟨by simp [upd_same], hcnt⟩⟩
    · intro v hv
      simp only [PWorld.set]
      refine (h.track v hv).imp id (fun h2 => h2.imp id (fun h3 => ⟨?_, h3.2⟩))
      by_cases hvw : v = w
      · rw [hvw, upd_same]
      · rw [hphs _ hvw]; exact h3.1
    · intro v hv hd
      simp only [PWorld.set] at hd ⊢
      rw [List.filter_append]
      by_cases hvw : v = w
      · subst hvw
        right
        refine ⟨s.progress.filter fun m => m.1 == v, ?_⟩
        simp [hcnt]
      · rw [hphs _ hvw] at hd
        have : (w == v) = false := by simp only [beq_eq_false_iff_ne]; exact fun e => hvw e.symm
        simp only [List.filter_cons, this, List.filter_nil]
        simpa using h.last v hv hd
  | receive w c q hm hq hs =>
    refine ⟨fun m hmem => h.prog m (by rw [hq]; exact List.mem_cons_of_mem _ hmem), ?_, ?_, fun _ _ => hs, fun h1 => ?_⟩
    · intro v hv
      simp only
      by_cases hvw : v = w
      · subst hvw
        rw [upd_same]
        have := (h.prog (v, c) (by rw [hq]; exact List.mem_cons_self)).2
        exact Or.inr this
      · rw [upd_other _ _ hvw]; exact h.track v hv
    · intro v hv hd
      simp only at hd ⊢
      have hl := h.last v hv hd
      rw [hq] at hl
      by_cases hvw : v = w
      · subst hvw
        simp only [List.filter_cons, beq_self_eq_true, if_true] at hl
        rcases hl with ⟨h1, _⟩ | ⟨l, h1⟩
        · cases h1
        · cases l with
          | nil =>
            simp only [List.nil_append, List.cons.injEq, Prod.mk.injEq, true_and] at h1
            left
            refine ⟨h1.2, ?_, trivial⟩
            rw [upd_same]; exact h1.1
          | cons a l =>
            simp only [List.cons_append, List.cons.injEq] at h1
            exact Or.inr ⟨l, h1.2⟩
      · have hb : (w == v) = false := by simp only [beq_eq_false_iff_ne]; exact fun e => hvw e.symm
        simp only [List.filter_cons, hb] at hl
        rw [upd_other _ _ hvw]
        rcases hl with ⟨h1, h2, _⟩ | h1
        · exact Or.inl ⟨by simpa using h1, h2, trivial⟩
        · exact Or.inr (by simpa using h1)
    · simp only [hm] at h1
      rcases h1 with h1 | h1 <;> cases h1
  | receiveLast w c q hm hq hs =>
    refine ⟨fun m hmem => h.prog m (by rw [hq]; exact List.mem_cons_of_mem _ hmem), ?_, ?_, fun h1 _ => (by cases h1), fun h1 => hs⟩
    · intro v hv
      simp only
      by_cases hvw : v = w
      · subst hvw
        rw [upd_same]
        have := (h.prog (v, c) (by rw [hq]; exact List.mem_cons_self)).2
        exact Or.inr this
      · rw [upd_other _ _ hvw]; exact h.track v hv
    · intro v hv hd
      simp only at hd ⊢
      have hl := h.last v hv hd
      rw [hq] at hl
      by_cases hvw : v = w
      · subst hvw
        simp only [List.filter_cons, beq_self_eq_true, if_true] at hl
        rcases hl with ⟨h1, _⟩ | ⟨l, h1⟩
        · cases h1
        · cases l with
          | nil =>
            simp only [List.nil_append, List.cons.injEq, Prod.mk.injEq, true_and] at h1
            left
            refine ⟨h1.2, ?_, trivial⟩
            rw [upd_same]; exact h1.1
          | cons a l =>
            simp only [List.cons_append, List.cons.injEq] at h1
            exact Or.inr ⟨l, h1.2⟩
      · have hb : (w == v) = false := by simp only [beq_eq_false_iff_ne]; exact fun e => hvw e.symm
        simp only [List.filter_cons, hb] at hl
        rw [upd_other _ _ hvw]
        rcases hl with ⟨h1, h2, _⟩ | h1
        · exact Or.inl ⟨by simpa using h1, h2, trivial⟩
        · exact Or.inr (by simpa using h1)
  | raise w hm hw hp => exact ⟨h.prog, h.track, h.last, fun h1 => (by cases h1), fun h1 => (by rcases h1 with h1 | h1 <;> cases h1)⟩
  | leftover n hm hall ho hd => exact ⟨h.prog, h.track, h.last, fun h1 => (by cases h1), fun h1 => (by rcases h1 with h1 | h1 <;> cases h1)⟩
  | index hm hall ho => exact ⟨h.prog, h.track, h.last, fun h1 => (by cases h1), fun _ => h.join (Or.inl hm)⟩

theorem rinv_reach (hD : 0 < cfg.downloaders) (hU : 0 < cfg.uploaders) {s : PWorld σ C} (h : PReach cfg remote0 s) : RInv' cfg s := by
  induction h with
  | start =>
    refine ⟨?_, fun w _ => Or.inl rfl, ?_, ?_, ?_⟩
    · intro m hm; simp [startPWorld] at hm
    · intro w hw hd; cases hd
    · intro _ h; cases h
    · intro h; rcases h with h | h <;> cases h
  | step hr hst ih => exact rinv_step (loc_reach hD hU hr) ih hst

theorem sum_eq_of_le (n : Nat) (f g : Nat → Nat) (hle : ∀ i, i < n → f i ≤ g i) (heq : ((List.range n).map f).sum = ((List.range n).map g).sum) :
    ∀ i, i < n → f i = g i := by
  induction n with
  | zero => intro i hi; omega
  | succ n ih =>
    rw [List.range_succ, List.map_append, List.map_append, List.sum_append, List.sum_append] at heq
    simp only [List.map_cons, List.map_nil, List.sum_cons, List.sum_nil, Nat.add_zero] at heq
    have h1 : ((List.range n).map f).sum ≤ ((List.range n).map g).sum := by
      clear heq ih
      induction n with
      | zero => simp
      | succ n ih =>
        rw [List.range_succ, List.map_append, List.map_append, List.sum_append, List.sum_append]
        simp only [List.map_cons, List.map_nil, List.sum_cons, List.sum_nil, Nat.add_zero]
        have := ih (fun i hi => hle i (by omega))
        have := hle n (by omega)
        omega
    have h2 := hle n (by omega)
    intro i hi
    by_cases he : i = n
    · subst he; omega
    · exact ih (fun i hi => hle i (by omega)) (by omega) i (by omega)

/-- When the main process leaves its loop, every worker with inputs is done. -/
theorem RInv'.all_done {s : PWorld σ C} (h : RInv' cfg s) (hm : s.main = .joining ∨ s.main = .indexed) : ∀ w, w < cfg.workers → 0 < cfg.items w →
    (s.ws w).phase = .done := by
  have heq := sum_eq_of_le cfg.workers s.tracker cfg.items (fun w hw => by rcases h.track w hw with h1 | h1 | h1 <;> omega) (h.join hm)
  intro w hw hpos
  rcases h.track w hw with h1 | h1 | h1
  · have := heq w hw; omega
  · have := heq w hw; omega
  · exact h1.1

/-- The order in which `(front, back)` decreases with every event. -/
def phaseRank : WPhase → Nat
  | .running => 3
  | .uploading => 2
  | .removing => 1
  | .done => 0
  | .failed => 0

/-- The part of a worker that loses weight when it works. -/
def frontOf (cfg : PipeCfg σ C) (x : PWorker σ C) : Nat :=
  2 * ((List.range cfg.downloaders).map fun d => (x.toDownload d).length).sum + x.ready.length + phaseRank x.phase

/-- The part of a worker that its uploaders and its remover empty. -/
def backOf (cfg : PipeCfg σ C) (x : PWorker σ C) : Nat :=
  2 * ((List.range cfg.uploaders).map fun u => (x.uploadQ u).length).sum +
    ((List.range cfg.uploaders).map fun u => if x.upDone u then 0 else 1).sum + x.removeQ.length

/-- The rank of the main process. -/
def mainRank : MainPhase → Nat
  | .waiting => 2
  | .joining => 1
  | .indexed => 0
  | .error => 0

/-- The first component of the measure. -/
def front (cfg : PipeCfg σ C) (s : PWorld σ C) : Nat := ((List.range cfg.workers).map fun w => frontOf cfg (s.ws w)).sum + mainRank s.main

/-- The second component of the measure. -/
def back (cfg : PipeCfg σ C) (s : PWorld σ C) : Nat := ((List.range cfg.workers).map fun w => backOf cfg (s.ws w)).sum + s.progress.length

theorem sum_set (g : PWorker σ C → Nat) (n : Nat) (ws : Nat → PWorker σ C) (w : Nat) (x : PWorker σ C) (hw : w < n) :
    ((List.range n).map fun v => g (upd ws w x v)).sum + g (ws w) = ((List.range n).map fun v => g (ws v)).sum + g x := by
  rw [comp_upd]
  exact sum_upd n (fun v => g (ws v)) w (g x) hw

theorem front_set {s : PWorld σ C} {w : Nat} (hw : w < cfg.workers) {x : PWorker σ C} {t : PWorld σ C} (ht : t.ws = upd s.ws w x) (hm : t.main = s.main) :
    front cfg t + frontOf cfg (s.ws w) = front cfg s + frontOf cfg x := by
  have := sum_set (frontOf cfg) cfg.workers s.ws w x hw
  simp only [front, ht, hm]
  omega

theorem back_set {s : PWorld σ C} {w : Nat} (hw : w < cfg.workers) {x : PWorker σ C} {t : PWorld σ C} (ht : t.ws = upd s.ws w x) (hp : t.progress = s.progress) :
    back cfg t + backOf cfg (s.ws w) = back cfg s + backOf cfg x := by
  have := sum_set (backOf cfg) cfg.workers s.ws w x hw
  simp only [back, ht, hp]
  omega

theorem lex_front {s t : PWorld σ C} {w : Nat} (hw : w < cfg.workers) {x : PWorker σ C} (ht : t.ws = upd s.ws w x) (hm : t.main = s.main)
    (h : frontOf cfg x < frontOf cfg (s.ws w)) : front cfg t < front cfg s ∨ (front cfg t = front cfg s ∧ back cfg t < back cfg s) := by
  have := front_set hw ht hm
  omega

theorem lex_back {s t : PWorld σ C} {w : Nat} (hw : w < cfg.workers) {x : PWorker σ C} (ht : t.ws = upd s.ws w x) (hm : t.main = s.main) (hp : t.progress = s.progress)
    (h1 : frontOf cfg x = frontOf cfg (s.ws w)) (h2 : backOf cfg x < backOf cfg (s.ws w)) :
    front cfg t < front cfg s ∨ (front cfg t = front cfg s ∧ back cfg t < back cfg s) := by
  have := front_set hw ht hm
  have := back_set hw ht hp
  omega

theorem pstep_measure {s t : PWorld σ C} (hst : PStep cfg s t) :
    front cfg t < front cfg s ∨ (front cfg t = front cfg s ∧ back cfg t < back cfg s) := by
  cases hst with
  | download w d i q hm hw hd hq =>
    refine lex_front hw rfl rfl ?_
    have := sum_upd cfg.downloaders (fun d => ((s.ws w).toDownload d).length) d q.length hd
    rw [hq] at this
    simp only [frontOf, comp_upd, List.length_append, List.length_cons, List.length_nil] at this ⊢
    omega
  | downloadEnd w d q hm hw hd hq =>
    refine lex_front hw rfl rfl ?_
    have := sum_upd cfg.downloaders (fun d => ((s.ws w).toDownload d).length) d q.length hd
    rw [hq] at this
    simp only [frontOf, comp_upd, List.length_append, List.length_cons, List.length_nil] at this ⊢
    omega
  | process w i q st files report hm hw hp hq hf hj hr => exact lex_front hw rfl rfl (by simp only [frontOf, hq, List.length_cons]; omega)
  | processFail w i q hm hw hp hq hf => exact lex_front hw rfl rfl (by simp only [frontOf, hp, phaseRank]; omega)
  | countNone w q hm hw hp hq hn => exact lex_front hw rfl rfl (by simp only [frontOf, hq, List.length_cons]; omega)
  | finishInputs w q files hm hw hp hq hn' hj => exact lex_front hw rfl rfl (by simp only [frontOf, hq, hp, phaseRank, List.length_cons]; omega)
  | finishFail w q hm hw hp hq hn hj => exact lex_front hw rfl rfl (by simp only [frontOf, hp, phaseRank]; omega)
  | upload w u n c q hm hw hu hal hq hd =>
    refine lex_back hw rfl rfl rfl rfl ?_
    have := sum_upd cfg.uploaders (fun u => ((s.ws w).uploadQ u).length) u q.length hu
    rw [hq] at this
    simp only [backOf, comp_upd, List.length_append, List.length_cons, List.length_nil] at this ⊢
    omega
  | uploadLost w u n q hm hw hu hal hf hc hq =>
    refine lex_back hw rfl rfl rfl rfl ?_
    have := sum_upd cfg.uploaders (fun u => ((s.ws w).uploadQ u).length) u q.length hu
    rw [hq] at this
    simp only [backOf, comp_upd, List.length_append, List.length_cons, List.length_nil] at this ⊢
    omega
  | uploaderDies w u n q hm hw hu hal hf hc hq =>
    refine lex_back hw rfl rfl rfl rfl ?_
    have := sum_upd cfg.uploaders (fun u => if (s.ws w).upDone u then 0 else 1) u 0 hu
    rw [hal] at this
    have e : (fun v => if upd (s.ws w).upDone u true v then 0 else 1) = upd (fun v => if (s.ws w).upDone v then 0 else 1) u 0 := by
      rw [comp_upd (fun b : Bool => if b then 0 else 1)]; rfl
    simp only [backOf, e] at this ⊢
    simp at this
    omega
  | uploadEnd w u q hm hw hu hal hq =>
    refine lex_back hw rfl rfl rfl rfl ?_
    have h1 := sum_upd cfg.uploaders (fun u => ((s.ws w).uploadQ u).length) u q.length hu
    rw [hq] at h1
    have := sum_upd cfg.uploaders (fun u => if (s.ws w).upDone u then 0 else 1) u 0 hu
    rw [hal] at this
    have e : (fun v => if upd (s.ws w).upDone u true v then 0 else 1) = upd (fun v => if (s.ws w).upDone v then 0 else 1) u 0 := by
      rw [comp_upd (fun b : Bool => if b then 0 else 1)]; rfl
    simp only [backOf, e, comp_upd, List.length_cons] at h1 this ⊢
    simp at this
    omega
  | joinUploaders w hm hw hp hall => exact lex_front hw rfl rfl (by simp only [frontOf, hp, phaseRank]; omega)
  | removeInputs w v i q hm hw hr hq => exact lex_back hw rfl rfl rfl rfl (by simp only [backOf, hq, List.length_cons]; omega)
  | removeChunk w n q hm hw hr hq => exact lex_back hw rfl rfl rfl rfl (by simp only [backOf, hq, List.length_cons]; omega)
  | removeEnd w q hm hw hr hq => exact lex_back hw rfl rfl rfl rfl (by simp only [backOf, hq, List.length_cons]; omega)
  | finish w hm hw hp hr => exact lex_front hw rfl rfl (by simp only [frontOf, hp, phaseRank]; omega)
  | receive w c q hm hq hs => right; exact ⟨rfl, by simp only [back, hq, List.length_cons]; omega⟩
  | receiveLast w c q hm hq hs => left; simp only [front, hm, mainRank]; omega
  | raise w hm hw hp => left; simp only [front, hm, mainRank]; omega
  | leftover n hm hall ho hd => left; simp only [front, hm, mainRank]; omega
  | index hm hall ho => left; simp only [front, hm, mainRank]; omega

theorem pstep_wf : WellFounded fun t s : PWorld σ C => PStep cfg s t := by
  refine Subrelation.wf (r := InvImage (Prod.Lex (· < ·) (· < ·)) (fun s : PWorld σ C => (front cfg s, back cfg s))) ?_
    (InvImage.wf _ (Prod.lex ⟨_, Nat.lt_wfRel.wf⟩ ⟨_, Nat.lt_wfRel.wf⟩).wf)
  intro t s hst
  rcases pstep_measure hst with h | ⟨h1, h2⟩
  · exact Prod.Lex.left _ _ h
  · simp only [InvImage]
    rw [h1]
    exact Prod.Lex.right _ h2

/-- A state in which the main process has not ended has a next event, unless it joins a worker that has failed. -/
theorem pstep_progress (hW : 0 < cfg.workers) (hD : 0 < cfg.downloaders) (hU : 0 < cfg.uploaders) {owner : FName → Nat} (hn : NamesOk cfg owner)
    (hf : cfg.faulty = false) {s : PWorld σ C} (h : PReach cfg remote0 s) (hm : s.main = .waiting ∨ s.main = .joining)
    (hnf : s.main = .joining → ∀ w, w < cfg.workers → (s.ws w).phase ≠ .failed) : ∃ t, PStep cfg s t := by
  have hloc := loc_reach hD hU h
  have hfin := finv_reach hD hU hn (Or.inl hf) h
  have hrin := rinv_reach hD hU h
  by_cases hall : ∀ w, w < cfg.workers → (s.ws w).phase = .done ∨ (s.ws w).phase = .failed
  · rcases hm with hm | hm
    · by_cases hfail : ∃ w, w < cfg.workers ∧ (s.ws w).phase = .failed
      · obtain ⟨w, hw, hp⟩ := hfail
        exact ⟨_, .raise s w hm hw hp⟩
      · have hdone : ∀ w, w < cfg.workers → (s.ws w).phase = .done := fun w hw => (hall w hw).resolve_right (fun hp => hfail ⟨w, hw, hp⟩)
        cases hp : s.progress with
        | cons m q =>
          by_cases hs : trackerSum cfg.workers (upd s.tracker m.1 m.2) = totalItems cfg
          · exact ⟨_, .receiveLast s m.1 m.2 q hm hp hs⟩
          · exact ⟨_, .receive s m.1 m.2 q hm hp hs⟩
        | nil =>
          exfalso
          have hlast : ∀ w, w < cfg.workers → s.tracker w = cfg.items w ∧ s.received = true := by
            intro w hw
            rcases hrin.last w hw (hdone w hw) with ⟨_, h2⟩ | ⟨l, h2⟩
            · exact h2
            · rw [hp] at h2; simp at h2
          refine hrin.wait hm (hlast 0 hW).2 ?_
          unfold trackerSum totalItems
          congr 1
          apply List.map_congr_left
          intro w hw
          exact (hlast w (List.mem_range.1 hw)).1
    · have hall : ∀ w, w < cfg.workers → (s.ws w).phase = .done := fun w hw => (hall w hw).resolve_right (hnf hm w hw)
      by_cases hd : ∀ n, s.disk n = none
      · exact ⟨_, .index s hm hall (fun _ => hd)⟩
      · obtain ⟨n, hnd⟩ := Classical.not_forall.1 hd
        by_cases ho : cfg.outPath = true
        · exact ⟨_, .leftover s n hm hall ho hnd⟩
        · exact ⟨_, .index s hm hall (fun h1 => absurd h1 ho)⟩
  · obtain ⟨w, hw⟩ := Classical.not_forall.1 hall
    obtain ⟨hw, hph⟩ := Classical.not_imp.1 hw
    have hl := hloc w hw
    cases hp : (s.ws w).phase with
    | done => exact absurd (Or.inl hp) hph
    | failed => exact absurd (Or.inr hp) hph
    | running =>
      by_cases hdl : ∃ d, d < cfg.downloaders ∧ (s.ws w).toDownload d ≠ []
      · obtain ⟨d, hd, hne⟩ := hdl
        cases hq : (s.ws w).toDownload d with
        | nil => exact absurd hq hne
        | cons o q =>
          cases o with
          | some i => exact ⟨_, .download s w d i q hm hw hd hq⟩
          | none => exact ⟨_, .downloadEnd s w d q hm hw hd hq⟩
      · have hemp : ∀ d, d < cfg.downloaders → (s.ws w).toDownload d = [] := fun d hd => Classical.not_not.1 (fun hne => hdl ⟨d, hd, hne⟩)
        cases hq : (s.ws w).ready with
        | nil =>
          exfalso
          have hc := hl.count
          have h1 := hl.early hp
          have hz : ((List.range cfg.downloaders).map fun d => nonesIn ((s.ws w).toDownload d)).sum = 0 := by
            rw [List.sum_eq_zero_iff_forall_eq_nat]
            intro k hk
            obtain ⟨d, hd, rfl⟩ := List.mem_map.1 hk
            rw [hemp d (List.mem_range.1 hd)]; rfl
          rw [hq, nonesIn_nil, hz] at hc
          omega
        | cons o q =>
          cases o with
          | some i =>
            by_cases hfr : filesReady cfg s w i
            · cases hj : (cfg.job w).onInput (s.ws w).st i with
              | none => exact ⟨_, .processFail s w i q hm hw hp hq (Or.inr hj)⟩
              | some r => exact ⟨_, .process s w i q r.1 r.2 false hm hw hp hq hfr hj (fun h => by cases h)⟩
            · exact ⟨_, .processFail s w i q hm hw hp hq (Or.inl hfr)⟩
          | none =>
            by_cases hlast : (s.ws w).nones + 1 = cfg.downloaders
            · cases hj : (cfg.job w).atEnd (s.ws w).st with
              | none => exact ⟨_, .finishFail s w q hm hw hp hq hlast hj⟩
              | some files => exact ⟨_, .finishInputs s w q files hm hw hp hq hlast hj⟩
            · exact ⟨_, .countNone s w q hm hw hp hq hlast⟩
    | uploading =>
      by_cases hup : ∀ u, u < cfg.uploaders → (s.ws w).upDone u = true
      · exact ⟨_, .joinUploaders s w hm hw hp hup⟩
      · obtain ⟨u, hu⟩ := Classical.not_forall.1 hup
        obtain ⟨hu, hne⟩ := Classical.not_imp.1 hu
        rcases hl.upB hf hp u hu with ⟨h1, _⟩ | ⟨h1, l, h2⟩
        · exact absurd h1 hne
        · cases l with
          | nil => exact ⟨_, .uploadEnd s w u [] hm hw hu h1 h2⟩
          | cons n l =>
            have hq : (s.ws w).uploadQ u = some n :: (l.map some ++ [none]) := h2
            have hmem : n ∈ queued cfg (s.ws w) := (flatMap_pop hu hq).mem_iff.2 List.mem_cons_self
            have : n ∈ (s.ws w).emitted.map (·.1) := hl.names.mem_iff.2 (List.mem_append_right _ hmem)
            obtain ⟨⟨n', c⟩, hf', hfe⟩ := List.mem_map.1 this
            simp only at hfe
            subst hfe
            exact ⟨_, .upload s w u n' c _ hm hw hu h1 hq (hfin.disk w hw n' c hf' hmem)⟩
    | removing =>
      rcases hl.rmB hp with ⟨h1, l, h2⟩ | ⟨h1, _⟩
      · cases l with
        | nil => exact ⟨_, .removeEnd s w [] hm hw h1 h2⟩
        | cons r l =>
          cases r with
          | inputs v i => exact ⟨_, .removeInputs s w v i _ hm hw h1 h2⟩
          | chunk n => exact ⟨_, .removeChunk s w n _ hm hw h1 h2⟩
      · exact ⟨_, .finish s w hm hw hp h1⟩

/-- The recipe never raises. -/
def JobsOk (cfg : PipeCfg σ C) : Prop :=
  ∀ w, w < cfg.workers → (∀ order st files i, jobRun (cfg.job w) (cfg.job w).start order = some (st, files) → i < cfg.items w → (order ++ [i]).Nodup →
      ((cfg.job w).onInput st i).isSome) ∧
    (∀ order st files, order.Perm (List.range (cfg.items w)) → jobRun (cfg.job w) (cfg.job w).start order = some (st, files) → ((cfg.job w).atEnd st).isSome)

/-- Then no worker fails. -/
theorem no_failure (hD : 0 < cfg.downloaders) (hU : 0 < cfg.uploaders) (hdisj : PathsDisjoint cfg) (hjobs : JobsOk cfg) {s : PWorld σ C}
    (h : PReach cfg remote0 s) : ∀ w, w < cfg.workers → (s.ws w).phase ≠ .failed := by
  have keep : ∀ {s t : PWorld σ C} {w : Nat} {x : PWorker σ C}, (∀ v, v < cfg.workers → (s.ws v).phase ≠ .failed) → t.ws = upd s.ws w x → x.phase ≠ .failed →
      ∀ v, v < cfg.workers → (t.ws v).phase ≠ .failed := by
    intro s t w x h ht hx v hv
    rw [ht]
    by_cases hvw : v = w
    · subst hvw; rw [upd_same]; exact hx
    · rw [upd_other _ _ hvw]; exact h v hv
  induction h with
  | start => intro w _ h; cases h
  | step hr hst ih =>
    rename_i s t
    have hloc := loc_reach hD hU hr
    cases hst with
    | download w d i q hm hw hd hq => exact keep ih rfl (ih w hw)
    | downloadEnd w d q hm hw hd hq => exact keep ih rfl (ih w hw)
    | process w i q st files report hm hw hp hq hf hj hr' => exact keep ih rfl (ih w hw)
    | processFail w i q hm hw hp hq hf =>
      exfalso
      have hmem : some i ∈ (s.ws w).ready := by rw [hq]; exact List.mem_cons_self
      rcases hf with hf | hf
      · apply hf
        intro hi p hpp
        exact cinv_reach hD hU hdisj hi hr w hw i hmem p hpp
      · have hnd : ((s.ws w).processed ++ [i]).Nodup := by
          have h1 := (hloc w hw).perm.nodup_iff.2 List.nodup_range
          rw [hq, somes_some] at h1
          have h2 := (List.nodup_append.1 h1).1
          have : (s.ws w).processed ++ i :: somes q = ((s.ws w).processed ++ [i]) ++ somes q := by simp
          rw [this] at h2
          exact (List.nodup_append.1 h2).1
        have := (hjobs w hw).1 _ _ _ i ((hloc w hw).run (Or.inl hp)) ((hloc w hw).lt (Or.inr hmem)) hnd
        rw [hf] at this
        cases this
    | countNone w q hm hw hp hq hn => exact keep ih rfl (ih w hw)
    | finishInputs w q files hm hw hp hq hn' hj => exact keep ih rfl (by simp)
    | finishFail w q hm hw hp hq hn hj =>
      exfalso
      have hl := hloc w hw
      have hc := hl.count
      rw [hq, nonesIn_none] at hc
      have hz : ((List.range cfg.downloaders).map fun d => nonesIn ((s.ws w).toDownload d)).sum = 0 := by omega
      have hemp : ∀ d, d < cfg.downloaders → (s.ws w).toDownload d = [] := by
        intro d hd
        rcases hl.tq d hd with h | ⟨l, h⟩
        · exact h
        · have := (List.sum_eq_zero_iff_forall_eq_nat.1 hz) (nonesIn ((s.ws w).toDownload d))
            (List.mem_map_of_mem (f := fun d => nonesIn ((s.ws w).toDownload d)) (List.mem_range.2 hd))
          rw [h, nonesIn_append, nonesIn_none] at this
          omega
      have hqe : q = [] := by
        rcases rq_tail hq (hl.rq hemp) with h | ⟨l, h⟩
        · exact h
        · rw [h, nonesIn_append, nonesIn_none] at hc; omega
      have hperm : (s.ws w).processed.Perm (List.range (cfg.items w)) := by
        have h1 := hl.perm
        have hw0 : waitingDl cfg (s.ws w) = [] := by
          unfold waitingDl
          rw [List.flatMap_eq_nil_iff]
          intro d hd
          rw [hemp d (List.mem_range.1 hd)]; rfl
        rw [hq, hqe, hw0] at h1
        simpa [somes_none, somes_nil] using h1
      have := (hjobs w hw).2 _ _ _ hperm (hl.run (Or.inl hp))
      rw [hj] at this
      cases this
    | upload w u n c q hm hw hu hal hq hd => exact keep ih rfl (ih w hw)
    | uploadLost w u n q hm hw hu hal hf hc hq => exact keep ih rfl (ih w hw)
    | uploaderDies w u n q hm hw hu hal hf hc hq => exact keep ih rfl (ih w hw)
    | uploadEnd w u q hm hw hu hal hq => exact keep ih rfl (ih w hw)
    | joinUploaders w hm hw hp hall => exact keep ih rfl (by simp)
    | removeInputs w v i q hm hw hr hq => exact keep ih rfl (ih w hw)
    | removeChunk w n q hm hw hr hq => exact keep ih rfl (ih w hw)
    | removeEnd w q hm hw hr hq => exact keep ih rfl (ih w hw)
    | finish w hm hw hp hr => exact keep ih rfl (by simp)
    | receive w c q hm hq hs => exact ih
    | receiveLast w c q hm hq hs => exact ih
    | raise w hm hw hp => exact ih
    | leftover n hm hall ho hd => exact ih
    | index hm hall ho => exact ih

end LitData
