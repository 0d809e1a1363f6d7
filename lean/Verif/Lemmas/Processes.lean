import Verif.Model.Processes
import Verif.Lemmas.LoaderIter
import Verif.Props.LoaderIter

namespace LitData
open LitData.Props

/-- The entries of a queue without the `None`s. -/
def somes {α : Type} (l : List (Option α)) : List α := l.filterMap id

theorem somes_append {α : Type} (a b : List (Option α)) : somes (a ++ b) = somes a ++ somes b := List.filterMap_append
theorem somes_some {α : Type} (a : α) (l : List (Option α)) : somes (some a :: l) = a :: somes l := rfl
theorem somes_none {α : Type} (l : List (Option α)) : somes (none :: l) = somes l := rfl
theorem somes_nil {α : Type} : somes ([] : List (Option α)) = [] := rfl
theorem somes_map {α β : Type} (l : List β) (f : β → α) : somes (l.map fun x => some (f x)) = l.map f := by
  induction l with
  | nil => rfl
  | cons a l ih => simp only [List.map_cons, somes_some, ih]
theorem somes_map_some {α : Type} (l : List α) : somes (l.map some) = l := by
  induction l with
  | nil => rfl
  | cons a l ih => simp only [List.map_cons, somes_some, ih]
theorem somes_replicate {α : Type} (n : Nat) : somes (List.replicate n (none : Option α)) = [] := by
  induction n with
  | zero => rfl
  | succ n ih => rw [List.replicate_succ, somes_none, ih]
theorem mem_somes {α : Type} {a : α} {l : List (Option α)} : a ∈ somes l ↔ some a ∈ l := by simp [somes]

/-- The files that wait for an uploader. -/
def queued {σ C : Type} (cfg : PipeCfg σ C) (x : PWorker σ C) : List FName := (List.range cfg.uploaders).flatMap fun u => somes (x.uploadQ u)

/-- The inputs that wait for a downloader. -/
def waitingDl {σ C : Type} (cfg : PipeCfg σ C) (x : PWorker σ C) : List Nat := (List.range cfg.downloaders).flatMap fun d => somes (x.toDownload d)

theorem comp_upd {α β : Type} (g : α → β) (Q : Nat → α) (u : Nat) (a : α) : (fun k => g (upd Q u a k)) = upd (fun k => g (Q k)) u (g a) := by
  funext k; unfold upd; split <;> rfl

theorem flatMap_upd {β : Type} (n : Nat) (f : Nat → List β) (w : Nat) (a : List β) (hw : w < n) :
    ((List.range n).flatMap (upd f w a) ++ f w).Perm ((List.range n).flatMap f ++ a) := by
  induction n with
  | zero => omega
  | succ n ih =>
    rw [List.range_succ, List.flatMap_append, List.flatMap_append]
    simp only [List.flatMap_cons, List.flatMap_nil, List.append_nil]
    by_cases he : w = n
    · subst he
      rw [upd_same]
      have : (List.range w).flatMap (upd f w a) = (List.range w).flatMap f := by
        rw [List.flatMap_def, List.flatMap_def]
        congr 1
        apply List.map_congr_left
        intro i hi
        have := List.mem_range.1 hi
        exact upd_other _ _ (by omega)
      rw [this, List.append_assoc, List.append_assoc]
      exact List.perm_append_comm.append_left _
    · have := ih (by omega)
      rw [upd_other _ _ (show n ≠ w by omega)]
      calc ((List.range n).flatMap (upd f w a) ++ f n ++ f w).Perm (((List.range n).flatMap (upd f w a) ++ f w) ++ f n) := by
            rw [List.append_assoc, List.append_assoc]; exact List.perm_append_comm.append_left _
        _ |>.Perm (((List.range n).flatMap f ++ a) ++ f n) := this.append_right _
        _ |>.Perm ((List.range n).flatMap f ++ f n ++ a) := by
            rw [List.append_assoc, List.append_assoc]; exact List.perm_append_comm.append_left _

/-- A queue loses entries and gets others. -/
theorem flatMap_somes_upd {α : Type} (n : Nat) (Q : Nat → List (Option α)) (w : Nat) (q : List (Option α)) (hw : w < n) :
    ((List.range n).flatMap (fun k => somes (upd Q w q k)) ++ somes (Q w)).Perm ((List.range n).flatMap (fun k => somes (Q k)) ++ somes q) := by
  rw [comp_upd]
  exact flatMap_upd n (fun k => somes (Q k)) w (somes q) hw

theorem flatMap_pop {α : Type} {n : Nat} {Q : Nat → List (Option α)} {w : Nat} {a : α} {q : List (Option α)} (hw : w < n) (h : Q w = some a :: q) :
    ((List.range n).flatMap fun k => somes (Q k)).Perm (a :: (List.range n).flatMap fun k => somes (upd Q w q k)) := by
  have hp := flatMap_somes_upd n Q w q hw
  rw [h, somes_some] at hp
  have h1 : ((List.range n).flatMap (fun k => somes (upd Q w q k)) ++ a :: somes q).Perm
      ((a :: (List.range n).flatMap fun k => somes (upd Q w q k)) ++ somes q) := List.perm_middle
  exact ((List.perm_append_right_iff _).1 (h1.symm.trans hp)).symm

theorem flatMap_pop_none {α : Type} {n : Nat} {Q : Nat → List (Option α)} {w : Nat} {q : List (Option α)} (hw : w < n) (h : Q w = none :: q) :
    ((List.range n).flatMap fun k => somes (Q k)).Perm ((List.range n).flatMap fun k => somes (upd Q w q k)) := by
  have hp := flatMap_somes_upd n Q w q hw
  rw [h, somes_none] at hp
  exact ((List.perm_append_right_iff _).1 hp).symm

theorem flatMap_push {α : Type} {n : Nat} {Q : Nat → List (Option α)} {w : Nat} {b : List (Option α)} (hw : w < n) :
    ((List.range n).flatMap fun k => somes (upd Q w (Q w ++ b) k)).Perm (((List.range n).flatMap fun k => somes (Q k)) ++ somes b) := by
  have hp := flatMap_somes_upd n Q w (Q w ++ b) hw
  rw [somes_append] at hp
  have h1 : ((List.range n).flatMap (fun k => somes (Q k)) ++ (somes (Q w) ++ somes b)).Perm
      (((List.range n).flatMap (fun k => somes (Q k)) ++ somes b) ++ somes (Q w)) := by
    rw [List.append_assoc]; exact List.perm_append_comm.append_left _
  exact (List.perm_append_right_iff _).1 (hp.trans h1)

theorem flatMap_single_mem {β : Type} (b : β) (k : Nat) : ∀ n, ((List.range n).flatMap fun d => if k == d then [b] else []) = if k < n then [b] else []
  | 0 => by simp
  | n + 1 => by
    rw [List.range_succ, List.flatMap_append, flatMap_single_mem b k n]
    simp only [List.flatMap_cons, List.flatMap_nil, List.append_nil]
    by_cases h1 : k < n
    · have h2 : (k == n) = false := by simp; omega
      simp [h1, h2, show k < n + 1 by omega]
    · by_cases h2 : k = n
      · subst h2; simp
      · have h3 : (k == n) = false := by simp [h2]
        simp [h1, h3, show ¬ k < n + 1 by omega]

/-- Sorting into classes keeps everything. -/
theorem partition_perm {β : Type} (n : Nat) (f : β → Nat) : ∀ l : List β, (∀ x ∈ l, f x < n) →
    ((List.range n).flatMap fun d => l.filter fun x => f x == d).Perm l
  | [], _ => by simp
  | x :: l, h => by
    have ih := partition_perm n f l (fun y hy => h y (List.mem_cons_of_mem _ hy))
    have e : (fun d => (x :: l).filter fun y => f y == d) = fun d => (if f x == d then [x] else []) ++ l.filter fun y => f y == d := by
      funext d
      rw [List.filter_cons]
      split <;> simp_all
    rw [e]
    refine (flatMap_append_perm _ _ _).trans ?_
    rw [flatMap_single_mem, if_pos (h x List.mem_cons_self)]
    exact ih.cons x

/-- The last files are spread over the uploaders. -/
theorem endEntries_perm {C : Type} (U : Nat) (hU : 0 < U) (files : List (FName × C)) :
    ((List.range U).flatMap fun u => somes (endEntries U u files)).Perm (files.map (·.1)) := by
  have e : ((List.range U).flatMap fun u => somes (endEntries U u files)) =
      ((List.range U).flatMap fun u => files.zipIdx.filter fun e => e.2 % U == u).map (fun e => e.1.1) := by
    rw [List.map_flatMap, List.flatMap_def, List.flatMap_def]
    congr 1
    apply List.map_congr_left
    intro u hu
    unfold endEntries
    rw [if_pos (List.mem_range.1 hu), somes_append, somes_map]
    simp [somes]
  rw [e]
  have := (partition_perm U (fun e : (FName × C) × Nat => e.2 % U) files.zipIdx (fun x _ => Nat.mod_lt _ hU)).map (fun e => e.1.1)
  refine this.trans ?_
  rw [← List.zipIdx_map_fst 0 files, List.map_map]
  simp only [List.zipIdx_map_fst]
  exact List.Perm.refl _

theorem putFiles_other {C : Type} (files : List (FName × C)) : ∀ (f : FName → Option C) (n : FName), n ∉ files.map (·.1) → putFiles f files n = f n := by
  induction files with
  | nil => intro f n _; rfl
  | cons e r ih =>
    intro f n h
    simp only [List.map_cons, List.mem_cons, not_or] at h
    unfold putFiles
    rw [ih _ n h.2]
    simp [h.1]

theorem putFiles_mem {C : Type} (files : List (FName × C)) : ∀ (f : FName → Option C) (n : FName) (c : C), (files.map (·.1)).Nodup → (n, c) ∈ files →
    putFiles f files n = some c := by
  induction files with
  | nil => intro f n c _ h; cases h
  | cons e r ih =>
    intro f n c hnd h
    simp only [List.map_cons, List.nodup_cons] at hnd
    unfold putFiles
    rcases List.mem_cons.1 h with h | h
    · subst h
      rw [putFiles_other r _ n hnd.1]
      simp
    · exact ih _ n c hnd.2 h

theorem putFiles_some {C : Type} (files : List (FName × C)) : ∀ (f : FName → Option C) (n : FName), putFiles f files n ≠ none →
    f n ≠ none ∨ n ∈ files.map (·.1) := by
  intro f n h
  by_cases hm : n ∈ files.map (·.1)
  · exact Or.inr hm
  · rw [putFiles_other _ _ _ hm] at h; exact Or.inl h

theorem jobRun_snoc {σ C : Type} (j : PipeJob σ C) (i : Nat) : ∀ (l : List Nat) (st s1 s2 : σ) (fs f : List (FName × C)),
    jobRun j st l = some (s1, fs) → j.onInput s1 i = some (s2, f) → jobRun j st (l ++ [i]) = some (s2, fs ++ f)
  | [], st, s1, s2, fs, f, h1, h2 => by
    simp only [jobRun, Option.some.injEq, Prod.mk.injEq] at h1
    obtain ⟨rfl, rfl⟩ := h1
    simp [jobRun, h2]
  | k :: l, st, s1, s2, fs, f, h1, h2 => by
    simp only [jobRun, List.cons_append] at h1 ⊢
    split at h1
    · cases h1
    · rename_i st' files hk
      cases hr : jobRun j st' l with
      | none => rw [hr] at h1; cases h1
      | some r =>
        rw [hr] at h1
        simp only [Option.map_some, Option.some.injEq, Prod.mk.injEq] at h1
        obtain ⟨rfl, rfl⟩ := h1
        rw [jobRun_snoc j i l st' r.1 s2 r.2 f (by rw [hr]) h2]
        simp

/-- How often `None` is in a queue. -/
def nonesIn {α : Type} (l : List (Option α)) : Nat := (l.filter Option.isNone).length

theorem nonesIn_append {α : Type} (a b : List (Option α)) : nonesIn (a ++ b) = nonesIn a + nonesIn b := by simp [nonesIn]
theorem nonesIn_some {α : Type} (a : α) (l : List (Option α)) : nonesIn (some a :: l) = nonesIn l := by simp [nonesIn]
theorem nonesIn_none {α : Type} (l : List (Option α)) : nonesIn (none :: l) = nonesIn l + 1 := by simp [nonesIn]
theorem nonesIn_nil {α : Type} : nonesIn ([] : List (Option α)) = 0 := rfl
theorem nonesIn_map_some {α : Type} (l : List α) : nonesIn (l.map some) = 0 := by
  induction l with
  | nil => rfl
  | cons a l ih => rw [List.map_cons, nonesIn_some, ih]
theorem nonesIn_replicate {α : Type} (n : Nat) : nonesIn (List.replicate n (none : Option α)) = n := by
  induction n with
  | zero => rfl
  | succ n ih => rw [List.replicate_succ, nonesIn_none, ih]

/-- What holds of a worker, whatever the others do. -/
structure WLoc {σ C : Type} (cfg : PipeCfg σ C) (w : Nat) (x : PWorker σ C) : Prop where
  perm : (x.processed ++ somes x.ready ++ waitingDl cfg x).Perm (List.range (cfg.items w))
  ord : ∀ d, d < cfg.downloaders → cfg.inputDir = true →
    (x.processed ++ somes x.ready).filter (fun i => i % cfg.downloaders == d) ++ somes (x.toDownload d) =
      (List.range (cfg.items w)).filter fun i => i % cfg.downloaders == d
  ordF : cfg.inputDir = false → x.processed ++ somes x.ready = List.range (cfg.items w) ∧ ∀ d, x.toDownload d = []
  tq : ∀ d, d < cfg.downloaders → x.toDownload d = [] ∨ ∃ l : List Nat, x.toDownload d = l.map some ++ [none]
  rq : (∀ d, d < cfg.downloaders → x.toDownload d = []) → x.ready = [] ∨ ∃ l, x.ready = l ++ [none]
  count : x.nones + nonesIn x.ready + ((List.range cfg.downloaders).map fun d => nonesIn (x.toDownload d)).sum = cfg.downloaders
  early : x.phase = .running → x.nones < cfg.downloaders
  late : x.phase ≠ .running → x.phase ≠ .failed → x.nones = cfg.downloaders
  counter : x.counter = x.processed.length
  run : x.phase = .running ∨ x.phase = .failed → jobRun (cfg.job w) (cfg.job w).start x.processed = some (x.st, x.emitted)
  runEnd : x.phase ≠ .running → x.phase ≠ .failed → jobFiles (cfg.job w) x.processed = some x.emitted
  names : (x.emitted.map (·.1)).Perm (x.uploaded ++ queued cfg x)
  reqC : ∀ n, some (RemoveReq.chunk n) ∈ x.removeQ → n ∈ x.uploaded
  reqI : ∀ v i, some (RemoveReq.inputs v i) ∈ x.removeQ → v = w ∧ i ∈ x.processed
  upA : cfg.faulty = false → x.phase = .running ∨ x.phase = .failed → ∀ u, u < cfg.uploaders → x.upDone u = false ∧ ∃ l : List FName, x.uploadQ u = l.map some
  upB : cfg.faulty = false → x.phase = .uploading → ∀ u, u < cfg.uploaders → (x.upDone u = true ∧ x.uploadQ u = []) ∨
    (x.upDone u = false ∧ ∃ l : List FName, x.uploadQ u = l.map some ++ [none])
  upC : cfg.faulty = false → x.phase = .removing ∨ x.phase = .done → ∀ u, u < cfg.uploaders → x.uploadQ u = []
  upD : x.phase = .removing ∨ x.phase = .done → ∀ u, u < cfg.uploaders → x.upDone u = true
  rmA : x.phase = .running ∨ x.phase = .failed ∨ x.phase = .uploading → x.removerDone = false ∧ ∃ l : List RemoveReq, x.removeQ = l.map some
  rmB : x.phase = .removing → (x.removerDone = false ∧ ∃ l : List RemoveReq, x.removeQ = l.map some ++ [none]) ∨ (x.removerDone = true ∧ x.removeQ = [])
  rmC : x.phase = .done → x.removerDone = true ∧ x.removeQ = []

theorem WLoc.init {σ C : Type} (cfg : PipeCfg σ C) (w : Nat) (hD : 0 < cfg.downloaders) : WLoc cfg w (startPWorker cfg w) := by
  have hrun : (startPWorker cfg w).phase = .running := rfl
  refine { perm := ?_, ord := ?_, ordF := ?_, tq := ?_, rq := ?_, count := ?_, early := fun _ => hD, late := fun h => absurd hrun h, counter := rfl,
           run := fun _ => rfl, runEnd := fun h => absurd hrun h, names := ?_, reqC := ?_, reqI := ?_, upA := ?_, upB := ?_, upC := ?_,
           upD := ?_, rmA := ?_, rmB := ?_, rmC := ?_ }
  · cases hi : cfg.inputDir with
    | true =>
      simp only [startPWorker, waitingDl, hi, if_true, somes_nil, List.nil_append, somes_append, somes_map_some, somes_none, List.append_nil]
      exact partition_perm _ (fun i => i % cfg.downloaders) _ (fun i _ => Nat.mod_lt _ hD)
    | false =>
      have e : (List.range cfg.downloaders).flatMap (fun _ => ([] : List Nat)) = [] := by simp [List.flatMap_eq_nil_iff]
      simp [startPWorker, waitingDl, hi, somes_nil, somes_append, somes_map_some, somes_replicate, e]
  · intro d hd hi
    simp only [startPWorker, hi, if_true, somes_nil, somes_append, somes_map_some, somes_none, List.append_nil, List.filter_nil, List.nil_append]
  · intro hi
    simp [startPWorker, hi, somes_append, somes_map_some, somes_replicate]
  · intro d hd
    cases hi : cfg.inputDir with
    | true => right; exact ⟨(List.range (cfg.items w)).filter fun i => i % cfg.downloaders == d, by simp only [startPWorker, hi, if_true]⟩
    | false => left; simp [startPWorker, hi]
  · intro _
    cases hi : cfg.inputDir with
    | true => left; simp [startPWorker, hi]
    | false =>
      right
      refine ⟨(List.range (cfg.items w)).map some ++ List.replicate (cfg.downloaders - 1) none, ?_⟩
      have : cfg.downloaders = (cfg.downloaders - 1) + 1 := by omega
      simp only [startPWorker, hi]
      conv => lhs; rw [this, List.replicate_succ']
      simp
  · cases hi : cfg.inputDir with
    | true =>
      simp only [startPWorker, hi, if_true, nonesIn_nil, nonesIn_append, nonesIn_map_some, nonesIn_none]
      rw [List.map_const', List.sum_replicate_nat, List.length_range]; omega
    | false =>
      simp [startPWorker, hi, nonesIn_append, nonesIn_map_some, nonesIn_nil, nonesIn_replicate, List.map_const']
  · simp [startPWorker, queued, somes_nil]
  · simp [startPWorker]
  · simp [startPWorker]
  · intro _ _ u _; exact ⟨rfl, [], rfl⟩
  · intro _ h; cases h
  · intro _ h; rcases h with h | h <;> cases h
  · intro h; rcases h with h | h <;> cases h
  · intro _; exact ⟨rfl, [], rfl⟩
  · intro h; cases h
  · intro h; cases h

section Local
variable {σ C : Type} {cfg : PipeCfg σ C} {w : Nat} {x : PWorker σ C}

theorem tq_cons {i : Nat} {q l : List (Option Nat)} (h : some i :: q = l) (hl : l = [] ∨ ∃ m : List Nat, l = m.map some ++ [none]) :
    ∃ m : List Nat, q = m.map some ++ [none] := by
  subst h
  rcases hl with h | ⟨m, h⟩
  · cases h
  · cases m with
    | nil => simp at h
    | cons a m =>
      simp only [List.map_cons, List.cons_append, List.cons.injEq] at h
      exact ⟨m, h.2⟩

theorem tq_none {α : Type} {q l : List (Option α)} (h : none :: q = l) (hl : l = [] ∨ ∃ m : List α, l = m.map some ++ [none]) : q = [] := by
  subst h
  rcases hl with h | ⟨m, h⟩
  · cases h
  · cases m with
    | nil => simpa using h
    | cons a m => simp at h

theorem WLoc.download (h : WLoc cfg w x) {d i : Nat} {q : List (Option Nat)} (hd : d < cfg.downloaders) (hq : x.toDownload d = some i :: q) :
    WLoc cfg w { x with toDownload := upd x.toDownload d q, ready := x.ready ++ [some i] } := by
  obtain ⟨m, hm⟩ := tq_cons hq.symm (h.tq d hd)
  refine { h with perm := ?_, ord := ?_, ordF := ?_, tq := ?_, rq := ?_, count := ?_ }
  · have hp := flatMap_pop hd hq
    refine List.Perm.trans ?_ h.perm
    simp only [waitingDl, somes_append, somes_some, somes_nil]
    rw [← List.append_assoc, List.append_assoc]
    exact hp.symm.append_left _
  · intro e he hi
    have ho := h.ord e he hi
    by_cases hed : e = d
    · subst hed
      have hie : (i % cfg.downloaders == e) = true := by
        rw [hq, somes_some] at ho
        have hmem : i ∈ (List.range (cfg.items w)).filter fun i => i % cfg.downloaders == e := by rw [← ho]; simp
        exact (List.mem_filter.1 hmem).2
      rw [hq, somes_some] at ho
      simp only [upd_same, somes_append, somes_some, somes_nil, ← List.append_assoc, List.filter_append, List.filter_cons, hie, if_true, List.filter_nil] at ho ⊢
      rw [← ho]; simp
    · have hie : (i % cfg.downloaders == e) = false := by
        have hod := h.ord d hd hi
        rw [hq, somes_some] at hod
        have hmem : i ∈ (List.range (cfg.items w)).filter fun i => i % cfg.downloaders == d := by rw [← hod]; simp
        have := (List.mem_filter.1 hmem).2
        simp only [beq_iff_eq] at this
        simp only [beq_eq_false_iff_ne]; omega
      simp only [upd_other _ _ hed, somes_append, somes_some, somes_nil, ← List.append_assoc, List.filter_append, List.filter_cons, hie, List.filter_nil] at ho ⊢
      simpa using ho
  · intro hi; have := (h.ordF hi).2 d; rw [hq] at this; cases this
  · intro e he
    by_cases hed : e = d
    · subst hed; right; exact ⟨m, by simp [upd_same, hm]⟩
    · simp only [upd_other _ _ hed]; exact h.tq e he
  · intro hall
    have := hall d hd
    simp [upd_same, hm] at this
  · have hc := h.count
    have hs := sum_upd cfg.downloaders (fun d => nonesIn (x.toDownload d)) d (nonesIn q) hd
    rw [hq, nonesIn_some] at hs
    simp only [comp_upd, nonesIn_append, nonesIn_some, nonesIn_nil] at hc ⊢
    omega

theorem WLoc.downloadEnd (h : WLoc cfg w x) {d : Nat} {q : List (Option Nat)} (hd : d < cfg.downloaders) (hq : x.toDownload d = none :: q) :
    WLoc cfg w { x with toDownload := upd x.toDownload d q, ready := x.ready ++ [none] } := by
  have hm := tq_none hq.symm (h.tq d hd)
  subst hm
  refine { h with perm := ?_, ord := ?_, ordF := ?_, tq := ?_, rq := ?_, count := ?_ }
  · have hp := flatMap_pop_none hd hq
    refine List.Perm.trans ?_ h.perm
    simp only [waitingDl, somes_append, somes_none, somes_nil, List.append_nil]
    exact hp.symm.append_left _
  · intro e he hi
    have ho := h.ord e he hi
    simp only [somes_append, somes_none, somes_nil, List.append_nil]
    by_cases hed : e = d
    · subst hed; rw [hq, somes_none] at ho; simpa [upd_same] using ho
    · simpa only [upd_other _ _ hed] using ho
  · intro hi; have := (h.ordF hi).2 d; rw [hq] at this; cases this
  · intro e he
    by_cases hed : e = d
    · subst hed; left; simp [upd_same]
    · simp only [upd_other _ _ hed]; exact h.tq e he
  · intro _; right; exact ⟨x.ready, rfl⟩
  · have hc := h.count
    have hs := sum_upd cfg.downloaders (fun d => nonesIn (x.toDownload d)) d (nonesIn ([] : List (Option Nat))) hd
    rw [hq, nonesIn_none] at hs
    simp only [comp_upd, nonesIn_append, nonesIn_none, nonesIn_nil] at hc hs ⊢
    omega

/-- The rest of the ready queue. -/
theorem rq_tail {o : Option Nat} {q l : List (Option Nat)} (h : l = o :: q) (hl : l = [] ∨ ∃ m, l = m ++ [none]) : q = [] ∨ ∃ m, q = m ++ [none] := by
  subst h
  rcases hl with h | ⟨m, h⟩
  · cases h
  · cases m with
    | nil => left; simp at h; exact h.2
    | cons a m =>
      simp only [List.cons_append, List.cons.injEq] at h
      exact Or.inr ⟨m, h.2⟩

theorem WLoc.process (h : WLoc cfg w x) (hU : 0 < cfg.uploaders) {i : Nat} {q : List (Option Nat)} {st : σ} {files : List (FName × C)} (hph : x.phase = .running)
    (hq : x.ready = some i :: q) (hjob : (cfg.job w).onInput x.st i = some (st, files)) :
    WLoc cfg w { x with
      ready := q, st := st, counter := x.counter + 1, processed := x.processed ++ [i],
      emitted := x.emitted ++ files,
      uploadQ := upd x.uploadQ (x.counter % cfg.uploaders)
        (x.uploadQ (x.counter % cfg.uploaders) ++ files.map fun f : FName × C => some f.1),
      removeQ := if cfg.inputDir then x.removeQ ++ [some (RemoveReq.inputs w i)] else x.removeQ } := by
  have hu : x.counter % cfg.uploaders < cfg.uploaders := Nat.mod_lt _ hU
  refine { h with perm := ?_, ord := ?_, ordF := ?_, rq := ?_, count := ?_, counter := ?_, run := ?_, runEnd := ?_, names := ?_, reqC := ?_, reqI := ?_, upA := ?_, upB := ?_, upC := ?_, rmA := ?_, rmB := ?_, rmC := ?_ }
  · have hp := h.perm
    rw [hq, somes_some] at hp
    refine List.Perm.trans (List.Perm.of_eq ?_) hp
    simp [waitingDl]
  · intro d hd hi
    have ho := h.ord d hd hi
    rw [hq, somes_some] at ho
    simpa using ho
  · intro hi
    obtain ⟨h1, h2⟩ := h.ordF hi
    rw [hq, somes_some] at h1
    exact ⟨by simpa using h1, h2⟩
  · intro hall; exact rq_tail hq (h.rq hall)
  · have := h.count; rw [hq, nonesIn_some] at this; exact this
  · simp [h.counter]
  · intro _
    exact jobRun_snoc _ i _ _ _ _ _ _ (h.run (Or.inl hph)) hjob
  · intro h1; exact absurd hph h1
  · simp only [List.map_append]
    have hp : (List.flatMap (fun k => somes (upd x.uploadQ (x.counter % cfg.uploaders) (x.uploadQ (x.counter % cfg.uploaders) ++
        files.map fun f : FName × C => some f.1) k)) (List.range cfg.uploaders)).Perm (queued cfg x ++ files.map (·.1)) := by
      have := flatMap_push (Q := x.uploadQ) (b := files.map fun f : FName × C => some f.1) hu
      rw [somes_map] at this
      exact this
    refine (h.names.append_right _).trans ?_
    rw [List.append_assoc]
    exact hp.symm.append_left _
  · intro n hn
    refine h.reqC n ?_
    revert hn
    simp only
    split
    · intro hn
      rcases List.mem_append.1 hn with hn | hn
      · exact hn
      · simp at hn
    · exact id
  · intro v j hn
    simp only at hn
    split at hn
    · rcases List.mem_append.1 hn with hn | hn
      · exact ⟨(h.reqI v j hn).1, List.mem_append_left _ (h.reqI v j hn).2⟩
      · simp only [List.mem_singleton, Option.some.injEq, RemoveReq.inputs.injEq] at hn
        exact ⟨hn.1, by rw [hn.2]; exact List.mem_append_right _ List.mem_cons_self⟩
    · exact ⟨(h.reqI v j hn).1, List.mem_append_left _ (h.reqI v j hn).2⟩
  · intro hf hp u hul
    obtain ⟨h1, l, h2⟩ := h.upA hf hp u hul
    refine ⟨h1, ?_⟩
    by_cases he : u = x.counter % cfg.uploaders
    · subst he
      refine ⟨l ++ files.map (·.1), ?_⟩
      simp only [upd_same, h2, List.map_append, List.map_map]
      rfl
    · simp only [upd_other _ _ he]; exact ⟨l, h2⟩
  · intro _ hp; rw [hph] at hp; cases hp
  · intro _ hp; rw [hph] at hp; rcases hp with hp | hp <;> cases hp
  · intro hp
    obtain ⟨h1, l, h2⟩ := h.rmA hp
    refine ⟨h1, ?_⟩
    simp only
    split
    · exact ⟨l ++ [RemoveReq.inputs w i], by simp [h2]⟩
    · exact ⟨l, h2⟩
  · intro hp; rw [hph] at hp; cases hp
  · intro hp; rw [hph] at hp; cases hp

theorem WLoc.fail (h : WLoc cfg w x) (hph : x.phase = .running) : WLoc cfg w { x with phase := .failed } := by
  refine { h with early := ?_, late := ?_, run := ?_, runEnd := ?_, upA := ?_, upB := ?_, upC := ?_, upD := ?_, rmA := ?_, rmB := ?_, rmC := ?_ }
  · intro h; cases h
  · intro _ h; exact absurd rfl h
  · intro _; exact h.run (Or.inl hph)
  · intro _ h; exact absurd rfl h
  · intro hf _; exact h.upA hf (Or.inl hph)
  · intro _ h; cases h
  · intro _ h; rcases h with h | h <;> cases h
  · intro h; rcases h with h | h <;> cases h
  · intro _; exact h.rmA (Or.inl hph)
  · intro h; cases h
  · intro h; cases h

theorem WLoc.countNone (h : WLoc cfg w x) (hph : x.phase = .running) {q : List (Option Nat)} (hq : x.ready = none :: q) (hn : x.nones + 1 ≠ cfg.downloaders) :
    WLoc cfg w { x with ready := q, nones := x.nones + 1 } := by
  have hc := h.count
  rw [hq, nonesIn_none] at hc
  refine { h with perm := ?_, ord := ?_, ordF := ?_, rq := ?_, count := ?_, early := ?_, late := ?_ }
  · have hp := h.perm; rw [hq, somes_none] at hp; exact hp
  · intro d hd hi; have ho := h.ord d hd hi; rw [hq, somes_none] at ho; exact ho
  · intro hi; obtain ⟨h1, h2⟩ := h.ordF hi; rw [hq, somes_none] at h1; exact ⟨h1, h2⟩
  · intro hall; exact rq_tail hq (h.rq hall)
  · simp only; omega
  · intro _; simp only; omega
  · intro h1; exact absurd hph h1

theorem WLoc.finishInputs (h : WLoc cfg w x) (hU : 0 < cfg.uploaders) (hph : x.phase = .running) {q : List (Option Nat)} {files : List (FName × C)}
    (hq : x.ready = none :: q) (hn : x.nones + 1 = cfg.downloaders) (hend : (cfg.job w).atEnd x.st = some files) :
    WLoc cfg w { x with
      ready := q, nones := x.nones + 1, phase := .uploading, emitted := x.emitted ++ files,
      uploadQ := fun u => x.uploadQ u ++ endEntries cfg.uploaders u files } := by
  have hc := h.count
  rw [hq, nonesIn_none] at hc
  refine { h with perm := ?_, ord := ?_, ordF := ?_, rq := ?_, count := ?_, early := ?_, late := ?_, run := ?_, runEnd := ?_, names := ?_, upA := ?_, upB := ?_, upC := ?_, upD := ?_, rmA := ?_, rmB := ?_, rmC := ?_ }
  · have hp := h.perm; rw [hq, somes_none] at hp; exact hp
  · intro d hd hi; have ho := h.ord d hd hi; rw [hq, somes_none] at ho; exact ho
  · intro hi; obtain ⟨h1, h2⟩ := h.ordF hi; rw [hq, somes_none] at h1; exact ⟨h1, h2⟩
  · intro hall; exact rq_tail hq (h.rq hall)
  · simp only; omega
  · intro h; cases h
  · intro _ _; exact hn
  · intro h; rcases h with h | h <;> cases h
  · intro _ _
    unfold jobFiles
    rw [h.run (Or.inl hph)]
    simp [hend]
  · simp only [List.map_append]
    refine (h.names.append_right _).trans ?_
    rw [List.append_assoc]
    refine List.Perm.append_left _ ?_
    simp only [queued, somes_append]
    refine List.Perm.trans ?_ (flatMap_append_perm _ _ _).symm
    exact (endEntries_perm cfg.uploaders hU files).symm.append_left _
  · intro _ h; rcases h with h | h <;> cases h
  · intro hf _ u hul
    obtain ⟨h1, l, h2⟩ := h.upA hf (Or.inl hph) u hul
    right
    refine ⟨h1, l ++ ((files.zipIdx.filter fun e => e.2 % cfg.uploaders == u).map fun e => e.1.1), ?_⟩
    simp only [h2, endEntries, if_pos hul, List.map_append, List.map_map, List.append_assoc]
    rfl
  · intro _ h; rcases h with h | h <;> cases h
  · intro h; rcases h with h | h <;> cases h
  · intro _; exact h.rmA (Or.inl hph)
  · intro h; cases h
  · intro h; cases h

theorem WLoc.upload (h : WLoc cfg w x) {u : Nat} {n : FName} {q : List (Option FName)} (hu : u < cfg.uploaders) (hal : x.upDone u = false)
    (hq : x.uploadQ u = some n :: q) :
    WLoc cfg w { x with
      uploadQ := upd x.uploadQ u q, uploaded := x.uploaded ++ [n], removeQ := x.removeQ ++ [some (RemoveReq.chunk n)] } := by
  have hnot : ¬ (x.phase = .removing ∨ x.phase = .done) := by
    intro hp
    have := h.upD hp u hu
    rw [hal] at this; cases this
  refine { h with names := ?_, reqC := ?_, reqI := ?_, upA := ?_, upB := ?_, upC := ?_, rmA := ?_, rmB := ?_, rmC := ?_ }
  · refine h.names.trans ?_
    simp only [queued, List.append_assoc, List.singleton_append]
    exact (flatMap_pop hu hq).append_left _
  · intro m hm
    rcases List.mem_append.1 hm with hm | hm
    · exact List.mem_append_left _ (h.reqC m hm)
    · simp only [List.mem_singleton, Option.some.injEq, RemoveReq.chunk.injEq] at hm
      rw [hm]; exact List.mem_append_right _ List.mem_cons_self
  · intro v j hm
    rcases List.mem_append.1 hm with hm | hm
    · exact h.reqI v j hm
    · simp at hm
  · intro hf hp v hv
    obtain ⟨h1, l, h2⟩ := h.upA hf hp v hv
    refine ⟨h1, ?_⟩
    by_cases he : v = u
    · subst he
      rw [hq] at h2
      cases l with
      | nil => cases h2
      | cons a l => simp only [List.map_cons, List.cons.injEq] at h2; exact ⟨l, by simp [upd_same, h2.2]⟩
    · simp only [upd_other _ _ he]; exact ⟨l, h2⟩
  · intro hf hp v hv
    by_cases he : v = u
    · subst he
      rcases h.upB hf hp v hv with ⟨h1, _⟩ | ⟨h1, l, h2⟩
      · rw [hal] at h1; cases h1
      · right
        refine ⟨h1, ?_⟩
        rw [hq] at h2
        cases l with
        | nil => simp at h2
        | cons a l => simp only [List.map_cons, List.cons_append, List.cons.injEq] at h2; exact ⟨l, by simp [upd_same, h2.2]⟩
    · simp only [upd_other _ _ he]; exact h.upB hf hp v hv
  · intro _ hp; exact absurd hp hnot
  · intro hp
    obtain ⟨h1, l, h2⟩ := h.rmA hp
    exact ⟨h1, l ++ [RemoveReq.chunk n], by simp [h2]⟩
  · intro hp; exact absurd (Or.inl hp) hnot
  · intro hp; exact absurd (Or.inr hp) hnot

theorem WLoc.uploaderDies (h : WLoc cfg w x) (hf : cfg.faulty = true) {u : Nat} : WLoc cfg w { x with upDone := upd x.upDone u true } := by
  refine { h with upA := ?_, upB := ?_, upC := ?_, upD := ?_ }
  · intro h; rw [hf] at h; cases h
  · intro h; rw [hf] at h; cases h
  · intro h; rw [hf] at h; cases h
  · intro hp v hv
    by_cases he : v = u
    · subst he; simp [upd_same]
    · simp only [upd_other _ _ he]; exact h.upD hp v hv

theorem WLoc.uploadEnd (h : WLoc cfg w x) {u : Nat} {q : List (Option FName)} (hu : u < cfg.uploaders) (hal : x.upDone u = false)
    (hq : x.uploadQ u = none :: q) : WLoc cfg w { x with uploadQ := upd x.uploadQ u q, upDone := upd x.upDone u true } := by
  have hnot : ¬ (x.phase = .removing ∨ x.phase = .done) := by
    intro hp
    have := h.upD hp u hu
    rw [hal] at this; cases this
  refine { h with names := ?_, upA := ?_, upB := ?_, upC := ?_, upD := ?_ }
  · refine h.names.trans ?_
    exact (flatMap_pop_none hu hq).append_left _
  · intro hf hp
    obtain ⟨_, l, h2⟩ := h.upA hf hp u hu
    rw [hq] at h2
    cases l <;> simp at h2
  · intro hf hp v hv
    by_cases he : v = u
    · subst he
      rcases h.upB hf hp v hv with ⟨h1, _⟩ | ⟨h1, l, h2⟩
      · rw [hal] at h1; cases h1
      · left
        exact ⟨by simp [upd_same], by simp only [upd_same]; exact tq_none hq.symm (Or.inr ⟨l, h2⟩)⟩
    · simp only [upd_other _ _ he]; exact h.upB hf hp v hv
  · intro _ hp; exact absurd hp hnot
  · intro hp; exact absurd hp hnot

theorem WLoc.joinUploaders (h : WLoc cfg w x) (hph : x.phase = .uploading) (hall : ∀ u, u < cfg.uploaders → x.upDone u = true) :
    WLoc cfg w { x with phase := .removing, removeQ := x.removeQ ++ [none] } := by
  refine { h with early := ?_, late := ?_, run := ?_, runEnd := ?_, reqC := ?_, reqI := ?_, upA := ?_, upB := ?_, upC := ?_, upD := ?_, rmA := ?_, rmB := ?_, rmC := ?_ }
  · intro h; cases h
  · intro _ _; exact h.late (by rw [hph]; simp) (by rw [hph]; simp)
  · intro h; rcases h with h | h <;> cases h
  · intro _ _; exact h.runEnd (by rw [hph]; simp) (by rw [hph]; simp)
  · intro n hn; exact h.reqC n (by simpa using hn)
  · intro v i hn; exact h.reqI v i (by simpa using hn)
  · intro _ h; rcases h with h | h <;> cases h
  · intro _ h; cases h
  · intro hf _ u hu
    rcases h.upB hf hph u hu with ⟨_, h2⟩ | ⟨h1, _⟩
    · exact h2
    · rw [hall u hu] at h1; cases h1
  · intro _; exact hall
  · intro h; rcases h with h | h | h <;> cases h
  · intro _
    obtain ⟨h1, l, h2⟩ := h.rmA (Or.inr (Or.inr hph))
    exact Or.inl ⟨h1, l, by simp [h2]⟩
  · intro h; cases h

theorem WLoc.remove (h : WLoc cfg w x) {r : RemoveReq} {q : List (Option RemoveReq)} (hq : x.removeQ = some r :: q) : WLoc cfg w { x with removeQ := q } := by
  refine { h with reqC := ?_, reqI := ?_, rmA := ?_, rmB := ?_, rmC := ?_ }
  · intro n hn; exact h.reqC n (by rw [hq]; exact List.mem_cons_of_mem _ hn)
  · intro v i hn; exact h.reqI v i (by rw [hq]; exact List.mem_cons_of_mem _ hn)
  · intro hp
    obtain ⟨h1, l, h2⟩ := h.rmA hp
    rw [hq] at h2
    cases l with
    | nil => cases h2
    | cons a l => simp only [List.map_cons, List.cons.injEq] at h2; exact ⟨h1, l, h2.2⟩
  · intro hp
    rcases h.rmB hp with ⟨h1, l, h2⟩ | ⟨_, h2⟩
    · rw [hq] at h2
      cases l with
      | nil => simp at h2
      | cons a l => simp only [List.map_cons, List.cons_append, List.cons.injEq] at h2; exact Or.inl ⟨h1, l, h2.2⟩
    · rw [hq] at h2; cases h2
  · intro hp
    have := (h.rmC hp).2
    rw [hq] at this; cases this

theorem WLoc.removeEnd (h : WLoc cfg w x) {q : List (Option RemoveReq)} (hq : x.removeQ = none :: q) : WLoc cfg w { x with removeQ := q, removerDone := true } := by
  refine { h with reqC := ?_, reqI := ?_, rmA := ?_, rmB := ?_, rmC := ?_ }
  · intro n hn; exact h.reqC n (by rw [hq]; exact List.mem_cons_of_mem _ hn)
  · intro v i hn; exact h.reqI v i (by rw [hq]; exact List.mem_cons_of_mem _ hn)
  · intro hp
    obtain ⟨h1, l, h2⟩ := h.rmA hp
    rw [hq] at h2
    cases l <;> simp at h2
  · intro hp
    rcases h.rmB hp with ⟨_, l, h2⟩ | ⟨_, h2⟩
    · exact Or.inr ⟨rfl, tq_none hq.symm (Or.inr ⟨l, h2⟩)⟩
    · rw [hq] at h2; cases h2
  · intro hp
    have := (h.rmC hp).2
    rw [hq] at this; cases this

theorem WLoc.finish (h : WLoc cfg w x) (hph : x.phase = .removing) (hr : x.removerDone = true) : WLoc cfg w { x with phase := .done } := by
  refine { h with early := ?_, late := ?_, run := ?_, runEnd := ?_, upA := ?_, upB := ?_, upC := ?_, upD := ?_, rmA := ?_, rmB := ?_, rmC := ?_ }
  · intro h; cases h
  · intro _ _; exact h.late (by rw [hph]; simp) (by rw [hph]; simp)
  · intro h; rcases h with h | h <;> cases h
  · intro _ _; exact h.runEnd (by rw [hph]; simp) (by rw [hph]; simp)
  · intro _ h; rcases h with h | h <;> cases h
  · intro _ h; cases h
  · intro hf _; exact h.upC hf (Or.inl hph)
  · intro _; exact h.upD (Or.inl hph)
  · intro h; rcases h with h | h | h <;> cases h
  · intro h; cases h
  · intro _
    rcases h.rmB hph with ⟨h1, _⟩ | h2
    · rw [hr] at h1; cases h1
    · exact h2

/-- The inputs of a worker which has left the loop. -/
theorem WLoc.all_processed (h : WLoc cfg w x) (h1 : x.phase ≠ .running) (h2 : x.phase ≠ .failed) :
    x.processed.Perm (List.range (cfg.items w)) ∧ x.ready = [] ∧ ∀ d, d < cfg.downloaders → x.toDownload d = [] := by
  have hn := h.late h1 h2
  have hc := h.count
  have hz : ((List.range cfg.downloaders).map fun d => nonesIn (x.toDownload d)).sum = 0 := by omega
  have hall : ∀ d, d < cfg.downloaders → x.toDownload d = [] := by
    intro d hd
    rcases h.tq d hd with h | ⟨l, hl⟩
    · exact h
    · have := (List.sum_eq_zero_iff_forall_eq_nat.1 hz) (nonesIn (x.toDownload d)) (List.mem_map_of_mem (f := fun d => nonesIn (x.toDownload d)) (List.mem_range.2 hd))
      rw [hl, nonesIn_append, nonesIn_none] at this
      omega
  have hr : x.ready = [] := by
    rcases h.rq hall with h | ⟨l, hl⟩
    · exact h
    · rw [hl, nonesIn_append, nonesIn_none] at hc
      omega
  refine ⟨?_, hr, hall⟩
  have hp := h.perm
  have hw : waitingDl cfg x = [] := by
    unfold waitingDl
    rw [List.flatMap_eq_nil_iff]
    intro d hd
    rw [hall d (List.mem_range.1 hd)]; rfl
  rw [hr, hw] at hp
  simpa [somes_nil] using hp

end Local

end LitData
