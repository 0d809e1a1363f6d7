import Verif.Lemmas.Processes

namespace LitData
open LitData.Props

variable {σ C : Type} {cfg : PipeCfg σ C} {remote0 : FName → Option C}

theorem set_ws (s : PWorld σ C) (w : Nat) (x : PWorker σ C) (v : Nat) : (s.set w x).ws v = if v = w then x else s.ws v := rfl

/-- The local invariant is kept when one worker changes. -/
theorem loc_set {s : PWorld σ C} (h : ∀ v, v < cfg.workers → WLoc cfg v (s.ws v)) {w : Nat} {x : PWorker σ C} (hx : WLoc cfg w x)
    (t : PWorld σ C) (ht : t.ws = upd s.ws w x) : ∀ v, v < cfg.workers → WLoc cfg v (t.ws v) := by
  intro v hv
  rw [ht]
  by_cases he : v = w
  · subst he; rw [upd_same]; exact hx
  · rw [upd_other _ _ he]; exact h v hv

/-- The local invariant holds in every state. -/
theorem loc_step (hU : 0 < cfg.uploaders) {s t : PWorld σ C} (h : ∀ v, v < cfg.workers → WLoc cfg v (s.ws v)) (hst : PStep cfg s t) :
    ∀ v, v < cfg.workers → WLoc cfg v (t.ws v) := by
  cases hst with
  | download w d i q hm hw hd hq => exact loc_set h ((h w hw).download hd hq) _ rfl
  | downloadEnd w d q hm hw hd hq => exact loc_set h ((h w hw).downloadEnd hd hq) _ rfl
  | process w i q st files report hm hw hp hq hf hj hr => exact loc_set h ((h w hw).process hU hp hq hj) _ rfl
  | processFail w i q hm hw hp hq hf => exact loc_set h ((h w hw).fail hp) _ rfl
  | countNone w q hm hw hp hq hn => exact loc_set h ((h w hw).countNone hp hq hn) _ rfl
  | finishInputs w q files hm hw hp hq hn hj => exact loc_set h ((h w hw).finishInputs hU hp hq hn hj) _ rfl
  | finishFail w q hm hw hp hq hn hj => exact loc_set h ((h w hw).fail hp) _ rfl
  | upload w u n c q hm hw hu hal hq hd => exact loc_set h ((h w hw).upload hu hal hq) _ rfl
  | uploadLost w u n q hm hw hu hal hf hc hq => exact loc_set h ((h w hw).upload hu hal hq) _ rfl
  | uploaderDies w u n q hm hw hu hal hf hc hq => exact loc_set h ((h w hw).uploaderDies hf) _ rfl
  | uploadEnd w u q hm hw hu hal hq => exact loc_set h ((h w hw).uploadEnd hu hal hq) _ rfl
  | joinUploaders w hm hw hp hall => exact loc_set h ((h w hw).joinUploaders hp hall) _ rfl
  | removeInputs w v i q hm hw hr hq => exact loc_set h ((h w hw).remove hq) _ rfl
  | removeChunk w n q hm hw hr hq => exact loc_set h ((h w hw).remove hq) _ rfl
  | removeEnd w q hm hw hr hq => exact loc_set h ((h w hw).removeEnd hq) _ rfl
  | finish w hm hw hp hr => exact loc_set h ((h w hw).finish hp hr) _ rfl
  | receive w c q hm hq hs => exact h
  | receiveLast w c q hm hq hs => exact h
  | raise w hm hw hp => exact h
  | leftover n hm hall ho hd => exact h
  | index hm hall ho => exact h

theorem loc_reach (hD : 0 < cfg.downloaders) (hU : 0 < cfg.uploaders) {s : PWorld σ C} (h : PReach cfg remote0 s) :
    ∀ v, v < cfg.workers → WLoc cfg v (s.ws v) := by
  induction h with
  | start => intro v _; exact WLoc.init cfg v hD
  | step _ hst ih => exact loc_step hU ih hst

/-- The names of the files tell their worker, and no worker sends two files of one name. -/
def NamesOk (cfg : PipeCfg σ C) (owner : FName → Nat) : Prop :=
  ∀ w, w < cfg.workers → ∀ order files, ((∃ st, jobRun (cfg.job w) (cfg.job w).start order = some (st, files)) ∨ jobFiles (cfg.job w) order = some files) →
    (files.map (·.1)).Nodup ∧ ∀ f ∈ files, owner f.1 = w

theorem WLoc.names_ok {owner : FName → Nat} (hn : NamesOk cfg owner) {w : Nat} (hw : w < cfg.workers) {x : PWorker σ C} (h : WLoc cfg w x) :
    (x.emitted.map (·.1)).Nodup ∧ ∀ f ∈ x.emitted, owner f.1 = w := by
  by_cases h1 : x.phase = .running ∨ x.phase = .failed
  · exact hn w hw x.processed x.emitted (Or.inl ⟨x.st, h.run h1⟩)
  · exact hn w hw x.processed x.emitted (Or.inr (h.runEnd (fun e => h1 (Or.inl e)) (fun e => h1 (Or.inr e))))

theorem WLoc.owner_uploaded {owner : FName → Nat} (hn : NamesOk cfg owner) {w : Nat} (hw : w < cfg.workers) {x : PWorker σ C} (h : WLoc cfg w x)
    {n : FName} (hm : n ∈ x.uploaded ∨ n ∈ queued cfg x) : owner n = w := by
  have : n ∈ x.emitted.map (·.1) := h.names.mem_iff.2 (List.mem_append.2 hm)
  obtain ⟨f, hf, rfl⟩ := List.mem_map.1 this
  exact (h.names_ok hn hw).2 f hf

theorem WLoc.split {owner : FName → Nat} (hn : NamesOk cfg owner) {w : Nat} (hw : w < cfg.workers) {x : PWorker σ C} (h : WLoc cfg w x)
    {n : FName} (h1 : n ∈ x.uploaded) (h2 : n ∈ queued cfg x) : False := by
  have hnd := h.names.nodup_iff.1 (h.names_ok hn hw).1
  exact (List.nodup_append.1 hnd).2.2 n h1 n h2 rfl

/-- What holds of the files. -/
structure FInv (cfg : PipeCfg σ C) (remote0 : FName → Option C) (s : PWorld σ C) : Prop where
  sent : ∀ w, w < cfg.workers → ∀ n c, (n, c) ∈ (s.ws w).emitted → n ∈ (s.ws w).uploaded → s.remote n = some c
  disk : ∀ w, w < cfg.workers → ∀ n c, (n, c) ∈ (s.ws w).emitted → n ∈ queued cfg (s.ws w) → s.disk n = some c
  left : ∀ n, s.disk n ≠ none → ∃ w, w < cfg.workers ∧ (n ∈ queued cfg (s.ws w) ∨ some (RemoveReq.chunk n) ∈ (s.ws w).removeQ)
  old : ∀ n, (∀ w, w < cfg.workers → n ∉ (s.ws w).emitted.map (·.1)) → s.remote n = remote0 n

theorem FInv.frame {s t : PWorld σ C} (h : FInv cfg remote0 s) (hd : t.disk = s.disk) (hr : t.remote = s.remote)
    (he : ∀ v, (t.ws v).emitted = (s.ws v).emitted) (hup : ∀ v, (t.ws v).uploaded = (s.ws v).uploaded)
    (hq : ∀ v, queued cfg (t.ws v) = queued cfg (s.ws v)) (hrm : ∀ v n, some (RemoveReq.chunk n) ∈ (s.ws v).removeQ → some (RemoveReq.chunk n) ∈ (t.ws v).removeQ) :
    FInv cfg remote0 t := by
  refine ⟨?_, ?_, ?_, ?_⟩
  · intro w hw n c h1 h2; rw [hr]; exact h.sent w hw n c (he w ▸ h1) (hup w ▸ h2)
  · intro w hw n c h1 h2; rw [hd]; exact h.disk w hw n c (he w ▸ h1) (hq w ▸ h2)
  · intro n hn
    rw [hd] at hn
    obtain ⟨w, hw, h1⟩ := h.left n hn
    refine ⟨w, hw, ?_⟩
    rw [hq w]
    exact h1.imp id (hrm w n)
  · intro n hn
    rw [hr]
    exact h.old n (fun w hw => by rw [← he w]; exact hn w hw)

/-- A frame for a change of one worker. -/
theorem FInv.frame_set {s : PWorld σ C} (h : FInv cfg remote0 s) {w : Nat} {x : PWorker σ C} (t : PWorld σ C) (ht : t.ws = upd s.ws w x)
    (hd : t.disk = s.disk) (hr : t.remote = s.remote) (he : x.emitted = (s.ws w).emitted) (hup : x.uploaded = (s.ws w).uploaded)
    (hq : queued cfg x = queued cfg (s.ws w)) (hrm : ∀ n, some (RemoveReq.chunk n) ∈ (s.ws w).removeQ → some (RemoveReq.chunk n) ∈ x.removeQ) :
    FInv cfg remote0 t := by
  refine h.frame hd hr ?_ ?_ ?_ ?_ <;> intro v <;> rw [ht] <;> by_cases hv : v = w
  · subst hv; rw [upd_same]; exact he
  · rw [upd_other _ _ hv]
  · subst hv; rw [upd_same]; exact hup
  · rw [upd_other _ _ hv]
  · subst hv; rw [upd_same]; exact hq
  · rw [upd_other _ _ hv]
  · subst hv; rw [upd_same]; exact hrm
  · rw [upd_other _ _ hv]; exact fun _ => id

/-- New files of a worker. -/
theorem FInv.emit {owner : FName → Nat} (hn : NamesOk cfg owner) {s t : PWorld σ C} (h : FInv cfg remote0 s) (hloc : ∀ v, v < cfg.workers → WLoc cfg v (s.ws v))
    (hloc' : ∀ v, v < cfg.workers → WLoc cfg v (t.ws v)) {w : Nat} (hw : w < cfg.workers) {x : PWorker σ C} {files : List (FName × C)} (ht : t.ws = upd s.ws w x)
    (hd : t.disk = putFiles s.disk files) (hr : t.remote = s.remote) (he : x.emitted = (s.ws w).emitted ++ files)
    (hup : x.uploaded = (s.ws w).uploaded) (hrm : ∀ n, some (RemoveReq.chunk n) ∈ (s.ws w).removeQ → some (RemoveReq.chunk n) ∈ x.removeQ) :
    FInv cfg remote0 t := by
  have hx : WLoc cfg w x := by have := hloc' w hw; rw [ht, upd_same] at this; exact this
  obtain ⟨hnd, hown⟩ := hx.names_ok hn hw
  rw [he, List.map_append] at hnd
  have hnf : (files.map (·.1)).Nodup := (List.nodup_append.1 hnd).2.1
  have hnew : ∀ n, n ∈ files.map (·.1) → n ∉ (s.ws w).emitted.map (·.1) := fun n h1 h2 => (List.nodup_append.1 hnd).2.2 n h2 n h1 rfl
  have hqperm : (queued cfg x).Perm (queued cfg (s.ws w) ++ files.map (·.1)) := by
    have h1 := (hloc w hw).names
    have h2 := hx.names
    rw [he, hup, List.map_append] at h2
    have h3 := (h1.append_right (files.map (·.1))).symm.trans h2
    rw [List.append_assoc] at h3
    exact ((List.perm_append_left_iff _).1 h3).symm
  have hother : ∀ v, v < cfg.workers → v ≠ w → ∀ n, (n ∈ (s.ws v).uploaded ∨ n ∈ queued cfg (s.ws v)) → n ∉ files.map (·.1) := by
    intro v hv hvw n h1 h2
    obtain ⟨f, hf, rfl⟩ := List.mem_map.1 h2
    have := (hloc v hv).owner_uploaded hn hv h1
    rw [hown f (by rw [he]; exact List.mem_append_right _ hf)] at this
    exact hvw this.symm
  refine ⟨?_, ?_, ?_, ?_⟩
  · intro v hv n c h1 h2
    rw [hr]
    rw [ht] at h1 h2
    by_cases hvw : v = w
    · subst hvw
      rw [upd_same] at h1 h2
      rw [he] at h1
      rw [hup] at h2
      rcases List.mem_append.1 h1 with h1 | h1
      · exact h.sent v hv n c h1 h2
      · have : n ∈ (s.ws v).emitted.map (·.1) := (hloc v hv).names.mem_iff.2 (List.mem_append_left _ h2)
        exact absurd this (hnew n (List.mem_map_of_mem (f := (·.1)) h1))
    · rw [upd_other _ _ hvw] at h1 h2
      exact h.sent v hv n c h1 h2
  · intro v hv n c h1 h2
    rw [hd]
    rw [ht] at h1 h2
    by_cases hvw : v = w
    · subst hvw
      rw [upd_same] at h1 h2
      rw [he] at h1
      rcases List.mem_append.1 h1 with h1 | h1
      · have hnm : n ∉ files.map (·.1) := fun hm => hnew n hm (List.mem_map_of_mem (f := (·.1)) h1)
        rw [putFiles_other _ _ _ hnm]
        rcases List.mem_append.1 (hqperm.mem_iff.1 h2) with h2 | h2
        · exact h.disk v hv n c h1 h2
        · exact absurd h2 hnm
      · exact putFiles_mem _ _ _ _ hnf h1
    · rw [upd_other _ _ hvw] at h1 h2
      rw [putFiles_other _ _ _ (hother v hv hvw n (Or.inr h2))]
      exact h.disk v hv n c h1 h2
  · intro n hdn
    rw [hd] at hdn
    rcases putFiles_some _ _ _ hdn with h1 | h1
    · obtain ⟨v, hv, h2⟩ := h.left n h1
      refine ⟨v, hv, ?_⟩
      rw [ht]
      by_cases hvw : v = w
      · subst hvw
        rw [upd_same]
        exact h2.imp (fun hm => hqperm.mem_iff.2 (List.mem_append_left _ hm)) (hrm n)
      · rw [upd_other _ _ hvw]; exact h2
    · exact ⟨w, hw, Or.inl (by rw [ht, upd_same]; exact hqperm.mem_iff.2 (List.mem_append_right _ h1))⟩
  · intro n hall
    rw [hr]
    refine h.old n (fun v hv hm => hall v hv ?_)
    rw [ht]
    by_cases hvw : v = w
    · subst hvw
      rw [upd_same, he, List.map_append]
      exact List.mem_append_left _ hm
    · rw [upd_other _ _ hvw]; exact hm

theorem finv_step (hU : 0 < cfg.uploaders) {owner : FName → Nat} (hn : NamesOk cfg owner) (hok : cfg.faulty = false ∨ cfg.cloud = false) {s t : PWorld σ C}
    (hloc : ∀ v, v < cfg.workers → WLoc cfg v (s.ws v)) (h : FInv cfg remote0 s) (hst : PStep cfg s t) : FInv cfg remote0 t := by
  have hloc' := loc_step hU hloc hst
  cases hst with
  | download w d i q hm hw hd hq => exact h.frame_set _ rfl rfl rfl rfl rfl rfl (fun _ => id)
  | downloadEnd w d q hm hw hd hq => exact h.frame_set _ rfl rfl rfl rfl rfl rfl (fun _ => id)
  | process w i q st files report hm hw hp hq hf hj hr =>
    refine h.emit hn hloc hloc' hw rfl rfl rfl rfl rfl ?_
    intro n hmem
    simp only
    split
    · exact List.mem_append_left _ hmem
    · exact hmem
  | processFail w i q hm hw hp hq hf => exact h.frame_set _ rfl rfl rfl rfl rfl rfl (fun _ => id)
  | countNone w q hm hw hp hq hn => exact h.frame_set _ rfl rfl rfl rfl rfl rfl (fun _ => id)
  | finishInputs w q files hm hw hp hq hn' hj => exact h.emit hn hloc hloc' hw rfl rfl rfl rfl rfl (fun _ => id)
  | finishFail w q hm hw hp hq hn hj => exact h.frame_set _ rfl rfl rfl rfl rfl rfl (fun _ => id)
  | upload w u n c q hm hw hu hal hq hd =>
    have hqn : n ∈ queued cfg (s.ws w) := (flatMap_pop hu hq).mem_iff.2 List.mem_cons_self
    have hqsub : ∀ m, m ∈ (List.range cfg.uploaders).flatMap (fun k => somes (upd (s.ws w).uploadQ u q k)) → m ∈ queued cfg (s.ws w) :=
      fun m hm => (flatMap_pop hu hq).mem_iff.2 (List.mem_cons_of_mem _ hm)
    refine ⟨?_, ?_, ?_, ?_⟩
    · intro v hv m c' h1 h2
      simp only [PWorld.set] at h1 h2 ⊢
      by_cases hmn : m = n
      · subst hmn
        have hrem : putFiles s.remote [(m, c)] m = some c := putFiles_mem _ _ _ _ (by simp) (by simp)
        rw [hrem]
        by_cases hvw : v = w
        · subst hvw
          rw [upd_same] at h1
          have := h.disk v hv m c' h1 hqn
          rw [hd] at this; exact this
        · rw [upd_other _ _ hvw] at h2
          have e1 := (hloc v hv).owner_uploaded hn hv (Or.inl h2)
          have e2 := (hloc w hw).owner_uploaded hn hw (Or.inr hqn)
          exact absurd (e1.symm.trans e2) hvw
      · rw [putFiles_other _ _ _ (by simpa using hmn)]
        by_cases hvw : v = w
        · subst hvw
          rw [upd_same] at h1 h2
          simp only [List.mem_append, List.mem_singleton] at h2
          exact h.sent v hv m c' h1 (h2.resolve_right hmn)
        · rw [upd_other _ _ hvw] at h1 h2
          exact h.sent v hv m c' h1 h2
    · intro v hv m c' h1 h2
      simp only [PWorld.set] at h1 h2 ⊢
      by_cases hvw : v = w
      · subst hvw
        rw [upd_same] at h1 h2
        exact h.disk v hv m c' h1 (hqsub m h2)
      · rw [upd_other _ _ hvw] at h1 h2
        exact h.disk v hv m c' h1 h2
    · intro m hm
      obtain ⟨v, hv, h2⟩ := h.left m hm
      refine ⟨v, hv, ?_⟩
      simp only [PWorld.set]
      by_cases hvw : v = w
      · subst hvw
        rw [upd_same]
        rcases h2 with h2 | h2
        · rcases List.mem_cons.1 ((flatMap_pop hu hq).mem_iff.1 h2) with h3 | h3
          · right; rw [h3]; exact List.mem_append_right _ List.mem_cons_self
          · exact Or.inl h3
        · exact Or.inr (List.mem_append_left _ h2)
      · rw [upd_other _ _ hvw]; exact h2
    · intro m hall
      simp only [PWorld.set] at hall ⊢
      have hmn : m ≠ n := by
        intro e
        subst e
        refine hall w hw ?_
        rw [upd_same]
        exact (hloc w hw).names.mem_iff.2 (List.mem_append_right _ hqn)
      rw [putFiles_other _ _ _ (by simpa using hmn)]
      refine h.old m (fun v hv hmem => hall v hv ?_)
      by_cases hvw : v = w
      · subst hvw; rw [upd_same]; exact hmem
      · rw [upd_other _ _ hvw]; exact hmem
  | uploadLost w u n q hm hw hu hal hf hc hq =>
    rcases hok with h1 | h1
    · rw [hf] at h1; cases h1
    · rw [hc] at h1; cases h1
  | uploaderDies w u n q hm hw hu hal hf hc hq => exact h.frame_set _ rfl rfl rfl rfl rfl rfl (fun _ => id)
  | uploadEnd w u q hm hw hu hal hq =>
    have hp : ∀ m, m ∈ queued cfg (s.ws w) ↔ m ∈ (List.range cfg.uploaders).flatMap (fun k => somes (upd (s.ws w).uploadQ u q k)) :=
      fun m => (flatMap_pop_none hu hq).mem_iff
    refine ⟨?_, ?_, ?_, ?_⟩
    · intro v hv m c' h1 h2
      simp only [PWorld.set] at h1 h2 ⊢
      by_cases hvw : v = w
      · subst hvw; rw [upd_same] at h1 h2; exact h.sent v hv m c' h1 h2
      · rw [upd_other _ _ hvw] at h1 h2; exact h.sent v hv m c' h1 h2
    · intro v hv m c' h1 h2
      simp only [PWorld.set] at h1 h2 ⊢
      by_cases hvw : v = w
      · subst hvw; rw [upd_same] at h1 h2; exact h.disk v hv m c' h1 ((hp m).2 h2)
      · rw [upd_other _ _ hvw] at h1 h2; exact h.disk v hv m c' h1 h2
    · intro m hm
      obtain ⟨v, hv, h2⟩ := h.left m hm
      refine ⟨v, hv, ?_⟩
      simp only [PWorld.set]
      by_cases hvw : v = w
      · subst hvw; rw [upd_same]; exact h2.imp (hp m).1 id
      · rw [upd_other _ _ hvw]; exact h2
    · intro m hall
      simp only [PWorld.set] at hall ⊢
      refine h.old m (fun v hv hmem => hall v hv ?_)
      by_cases hvw : v = w
      · subst hvw; rw [upd_same]; exact hmem
      · rw [upd_other _ _ hvw]; exact hmem
  | joinUploaders w hm hw hp hall => exact h.frame_set _ rfl rfl rfl rfl rfl rfl (fun _ => List.mem_append_left _)
  | removeInputs w v i q hm hw hr hq =>
    refine h.frame_set _ rfl rfl rfl rfl rfl rfl (fun n hmem => ?_)
    rw [hq] at hmem
    simpa using hmem
  | removeChunk w n q hm hw hr hq =>
    have hup := (hloc w hw).reqC n (by rw [hq]; exact List.mem_cons_self)
    refine ⟨?_, ?_, ?_, ?_⟩
    · intro v hv m c' h1 h2
      simp only [PWorld.set] at h1 h2 ⊢
      by_cases hvw : v = w
      · subst hvw; rw [upd_same] at h1 h2; exact h.sent v hv m c' h1 h2
      · rw [upd_other _ _ hvw] at h1 h2; exact h.sent v hv m c' h1 h2
    · intro v hv m c' h1 h2
      simp only [PWorld.set] at h1 h2 ⊢
      have hmem : (m, c') ∈ (s.ws v).emitted ∧ m ∈ queued cfg (s.ws v) := by
        by_cases hvw : v = w
        · subst hvw; rw [upd_same] at h1 h2; exact ⟨h1, h2⟩
        · rw [upd_other _ _ hvw] at h1 h2; exact ⟨h1, h2⟩
      have hmn : m ≠ n := by
        intro e
        subst e
        have e1 := (hloc v hv).owner_uploaded hn hv (Or.inr hmem.2)
        have e2 := (hloc w hw).owner_uploaded hn hw (Or.inl hup)
        have hvw : v = w := e1.symm.trans e2
        subst hvw
        exact (hloc v hv).split hn hv hup hmem.2
      simp only [dropFile, if_neg hmn]
      exact h.disk v hv m c' hmem.1 hmem.2
    · intro m hm
      simp only [PWorld.set, dropFile] at hm ⊢
      have hmn : m ≠ n := by intro e; subst e; simp at hm
      rw [if_neg hmn] at hm
      obtain ⟨v, hv, h2⟩ := h.left m hm
      refine ⟨v, hv, ?_⟩
      by_cases hvw : v = w
      · subst hvw
        rw [upd_same]
        refine h2.imp id (fun hmem => ?_)
        rw [hq] at hmem
        simp only [List.mem_cons, Option.some.injEq, RemoveReq.chunk.injEq] at hmem
        exact hmem.resolve_left hmn
      · rw [upd_other _ _ hvw]; exact h2
    · intro m hall
      simp only [PWorld.set] at hall ⊢
      refine h.old m (fun v hv hmem => hall v hv ?_)
      by_cases hvw : v = w
      · subst hvw; rw [upd_same]; exact hmem
      · rw [upd_other _ _ hvw]; exact hmem
  | removeEnd w q hm hw hr hq =>
    refine h.frame_set _ rfl rfl rfl rfl rfl rfl (fun n hmem => ?_)
    rw [hq] at hmem
    simpa using hmem
  | finish w hm hw hp hr => exact h.frame_set _ rfl rfl rfl rfl rfl rfl (fun _ => id)
  | receive w c q hm hq hs => exact ⟨h.sent, h.disk, h.left, h.old⟩
  | receiveLast w c q hm hq hs => exact ⟨h.sent, h.disk, h.left, h.old⟩
  | raise w hm hw hp => exact ⟨h.sent, h.disk, h.left, h.old⟩
  | leftover n hm hall ho hd => exact ⟨h.sent, h.disk, h.left, h.old⟩
  | index hm hall ho => exact ⟨h.sent, h.disk, h.left, h.old⟩

theorem finv_reach (hD : 0 < cfg.downloaders) (hU : 0 < cfg.uploaders) {owner : FName → Nat} (hn : NamesOk cfg owner) (hok : cfg.faulty = false ∨ cfg.cloud = false)
    {s : PWorld σ C} (h : PReach cfg remote0 s) : FInv cfg remote0 s := by
  induction h with
  | start =>
    refine ⟨?_, ?_, ?_, fun _ _ => rfl⟩
    · intro w hw n c h1; simp [startPWorld, startPWorker] at h1
    · intro w hw n c h1; simp [startPWorld, startPWorker] at h1
    · intro n hn; simp [startPWorld] at hn
  | step hr hst ih => exact finv_step hU hn hok (loc_reach hD hU hr) ih hst

end LitData
