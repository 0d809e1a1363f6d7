import Verif.Model.DiskSpace

/-! C93: the disk space that the inputs of `map` and `optimize` take. -/

namespace LitData.Props
open LitData

theorem sumTo_congr {n : Nat} {f g : Nat → Nat} (h : ∀ i, i < n → f i = g i) : sumTo n f = sumTo n g := by
  induction n with
  | zero => rfl
  | succ n ih => simp only [sumTo]; rw [ih fun i hi => h i (by omega), h n (by omega)]

theorem sumTo_set {n i : Nat} (hi : i < n) (f g : Nat → Nat) (h : ∀ j, j ≠ i → g j = f j) : sumTo n g + f i = sumTo n f + g i := by
  induction n with
  | zero => omega
  | succ n ih =>
    simp only [sumTo]
    by_cases e : i = n
    · subst e
      rw [sumTo_congr (g := f) fun j hj => h j (by omega)]
      omega
    · have := ih (by omega)
      rw [h n (fun x => e x.symm)]
      omega

theorem sumTo_le {n S : Nat} {f : Nat → Nat} (h : ∀ i, i < n → f i ≤ S) : sumTo n f ≤ n * S := by
  induction n with
  | zero => simp [sumTo]
  | succ n ih =>
    have := ih fun i hi => h i (by omega)
    have := h n (by omega)
    simp only [sumTo, Nat.succ_mul]
    omega

theorem sumTo_mono {n : Nat} {f g : Nat → Nat} (h : ∀ i, i < n → f i ≤ g i) : sumTo n f ≤ sumTo n g := by
  induction n with
  | zero => simp [sumTo]
  | succ n ih =>
    have := ih fun i hi => h i (by omega)
    have := h n (by omega)
    simp only [sumTo]
    omega

theorem sumTo_zero {n : Nat} {f : Nat → Nat} (h : ∀ i, i < n → f i = 0) : sumTo n f = 0 := by
  have := sumTo_le (S := 0) (f := f) (n := n) fun i hi => by rw [h i hi]; omega
  omega

/-- The downloaders and the inputs agree. -/
structure SpaceInv (cfg : SpaceCfg) (s : SpaceState) : Prop where
  busy : ∀ d i k, s.busy d = some (i, k) → i < cfg.n ∧ cfg.by_ i = d ∧ s.at_ i = .fetching ∧ k ≤ cfg.size i
  fetching : ∀ i, i < cfg.n → s.at_ i = .fetching → ∃ k, s.busy (cfg.by_ i) = some (i, k)

theorem spaceInv_start (cfg : SpaceCfg) : SpaceInv cfg .start :=
  ⟨fun _ _ _ h => (nomatch h), fun _ _ h => (nomatch h)⟩

theorem spaceInv_step {cfg : SpaceCfg} {s t : SpaceState} (hi : SpaceInv cfg s) (h : SpaceStep cfg s t) : SpaceInv cfg t := by
  cases h with
  | begin i hn hw hb hf he =>
    refine ⟨fun d j k h => ?_, fun j hj h => ?_⟩
    · simp only at h ⊢
      split at h
      · cases h
        rename_i e
        exact ⟨hn, e.symm, if_pos rfl, Nat.zero_le _⟩
      · obtain ⟨a, b, c, e⟩ := hi.busy d j k h
        refine ⟨a, b, ?_, e⟩
        split
        · rfl
        · exact c
    · simp only at h ⊢
      split at h
      · rename_i e; subst e; exact ⟨0, if_pos rfl⟩
      · obtain ⟨k, hk⟩ := hi.fetching j hj h
        refine ⟨k, ?_⟩
        split
        · rename_i e; rw [e, hb] at hk; cases hk
        · exact hk
  | write d i k m hb hm hk =>
    obtain ⟨a, b, c, e⟩ := hi.busy d i k hb
    refine ⟨fun d' j k' h => ?_, fun j hj h => ?_⟩
    · simp only at h ⊢
      split at h
      · rename_i e'; subst e'; cases h; exact ⟨a, b, c, hk⟩
      · exact hi.busy d' j k' h
    · obtain ⟨k', hk'⟩ := hi.fetching j hj h
      simp only
      split
      · rename_i e'
        rw [e', hb] at hk'
        cases hk'
        exact ⟨_, rfl⟩
      · exact ⟨k', hk'⟩
  | finish d i hb =>
    obtain ⟨a, b, c, e⟩ := hi.busy d i _ hb
    refine ⟨fun d' j k' h => ?_, fun j hj h => ?_⟩
    · simp only at h ⊢
      split at h
      · cases h
      · rename_i hne
        obtain ⟨a', b', c', e'⟩ := hi.busy d' j k' h
        refine ⟨a', b', ?_, e'⟩
        split
        · rename_i e''; subst e''; exact absurd (b'.symm.trans b) hne
        · exact c'
    · simp only at h ⊢
      split at h
      · cases h
      · rename_i hne
        obtain ⟨k', hk'⟩ := hi.fetching j hj h
        refine ⟨k', ?_⟩
        split
        · rename_i e'
          rw [e', hb] at hk'
          cases hk'
          exact absurd rfl hne
        · exact hk'
  | use i hn hr =>
    refine ⟨fun d j k h => ?_, fun j hj h => ?_⟩
    · obtain ⟨a, b, c, e⟩ := hi.busy d j k h
      refine ⟨a, b, ?_, e⟩
      simp only
      split
      · rename_i e'; subst e'; rw [hr] at c; cases c
      · exact c
    · simp only at h ⊢
      split at h
      · cases h
      · exact hi.fetching j hj h
  | remove i hm hn hr =>
    refine ⟨fun d j k h => ?_, fun j hj h => ?_⟩
    · obtain ⟨a, b, c, e⟩ := hi.busy d j k h
      refine ⟨a, b, ?_, e⟩
      simp only
      split
      · rename_i e'; subst e'; rw [hr] at c; cases c
      · exact c
    · simp only at h ⊢
      split at h
      · cases h
      · exact hi.fetching j hj h

/-- The bytes that a downloader has still to write of its present input. -/
def restBytes (cfg : SpaceCfg) (s : SpaceState) (d : Nat) : Nat :=
  match s.busy d with
  | some (i, k) => cfg.size i - k
  | none => 0

/-- What the copies take, with those that are being downloaded in full. -/
def taken (cfg : SpaceCfg) (s : SpaceState) : Nat :=
  sumTo cfg.n (copyBytes cfg s) + sumTo cfg.nd (partBytes s) + sumTo cfg.nd (restBytes cfg s)

/-- No step but the beginning of a download makes this more. -/
theorem taken_step {cfg : SpaceCfg} (hby : ∀ i, i < cfg.n → cfg.by_ i < cfg.nd) {s t : SpaceState} (hi : SpaceInv cfg s) (h : SpaceStep cfg s t) :
    taken cfg t ≤ taken cfg s ∨ (spaceEnough cfg s ∧ sumTo cfg.n (copyBytes cfg t) = sumTo cfg.n (copyBytes cfg s) ∧ sumTo cfg.nd (partBytes t) = sumTo cfg.nd (partBytes s)) := by
  cases h with
  | begin i hn hw hb hf he =>
    refine .inr ⟨he, sumTo_congr fun j _ => ?_, sumTo_congr fun d _ => ?_⟩
    · unfold copyBytes
      simp only
      by_cases e : j = i
      · subst e; rw [if_pos rfl, hw]
      · rw [if_neg e]
    · unfold partBytes
      simp only
      by_cases e : d = cfg.by_ i
      · subst e; rw [if_pos rfl, hb]
      · rw [if_neg e]
  | write d i k m hb hm hk =>
    left
    obtain ⟨a, b, c, e⟩ := hi.busy d i k hb
    have hd : d < cfg.nd := b ▸ hby i a
    have h1 := sumTo_set hd (partBytes s) (partBytes ⟨s.at_, fun e => if e = d then some (i, k + m) else s.busy e⟩) (by intro j hj; unfold partBytes; simp only; rw [if_neg hj])
    have h2 := sumTo_set hd (restBytes cfg s) (restBytes cfg ⟨s.at_, fun e => if e = d then some (i, k + m) else s.busy e⟩) (by intro j hj; unfold restBytes; simp only; rw [if_neg hj])
    have e1 : partBytes s d = k := by unfold partBytes; rw [hb]
    have e2 : restBytes cfg s d = cfg.size i - k := by unfold restBytes; rw [hb]
    have e3 : partBytes ⟨s.at_, fun e => if e = d then some (i, k + m) else s.busy e⟩ d = k + m := by unfold partBytes; simp
    have e4 : restBytes cfg ⟨s.at_, fun e => if e = d then some (i, k + m) else s.busy e⟩ d = cfg.size i - (k + m) := by unfold restBytes; simp
    rw [e1, e3] at h1
    rw [e2, e4] at h2
    have h3 : sumTo cfg.n (copyBytes cfg ⟨s.at_, fun e => if e = d then some (i, k + m) else s.busy e⟩) = sumTo cfg.n (copyBytes cfg s) := rfl
    unfold taken
    omega
  | finish d i hb =>
    left
    obtain ⟨a, b, c, e⟩ := hi.busy d i _ hb
    have hd : d < cfg.nd := b ▸ hby i a
    have h0 := sumTo_set a (copyBytes cfg s) (copyBytes cfg ⟨fun j => if j = i then .ready else s.at_ j, fun e => if e = d then none else s.busy e⟩)
      (by intro j hj; unfold copyBytes; simp only; rw [if_neg hj])
    have h1 := sumTo_set hd (partBytes s) (partBytes ⟨fun j => if j = i then .ready else s.at_ j, fun e => if e = d then none else s.busy e⟩)
      (by intro j hj; unfold partBytes; simp only; rw [if_neg hj])
    have h2 := sumTo_set hd (restBytes cfg s) (restBytes cfg ⟨fun j => if j = i then .ready else s.at_ j, fun e => if e = d then none else s.busy e⟩)
      (by intro j hj; unfold restBytes; simp only; rw [if_neg hj])
    have e0 : copyBytes cfg s i = 0 := by unfold copyBytes; rw [c]
    have e1 : partBytes s d = cfg.size i := by unfold partBytes; rw [hb]
    have e2 : restBytes cfg s d = 0 := by unfold restBytes; rw [hb]; simp
    have e3 : copyBytes cfg ⟨fun j => if j = i then .ready else s.at_ j, fun e => if e = d then none else s.busy e⟩ i = cfg.size i := by unfold copyBytes; simp
    have e4 : partBytes ⟨fun j => if j = i then .ready else s.at_ j, fun e => if e = d then none else s.busy e⟩ d = 0 := by unfold partBytes; simp
    have e5 : restBytes cfg ⟨fun j => if j = i then .ready else s.at_ j, fun e => if e = d then none else s.busy e⟩ d = 0 := by unfold restBytes; simp
    rw [e0, e3] at h0
    rw [e1, e4] at h1
    rw [e2, e5] at h2
    unfold taken
    omega
  | use i hn hr =>
    left
    have h0 : sumTo cfg.n (copyBytes cfg ⟨fun j => if j = i then .used else s.at_ j, s.busy⟩) = sumTo cfg.n (copyBytes cfg s) := sumTo_congr fun j _ => by
      unfold copyBytes
      simp only
      by_cases e : j = i
      · subst e; rw [if_pos rfl, hr]
      · rw [if_neg e]
    have h1 : sumTo cfg.nd (partBytes ⟨fun j => if j = i then .used else s.at_ j, s.busy⟩) = sumTo cfg.nd (partBytes s) := rfl
    have h2 : sumTo cfg.nd (restBytes cfg ⟨fun j => if j = i then .used else s.at_ j, s.busy⟩) = sumTo cfg.nd (restBytes cfg s) := rfl
    unfold taken
    omega
  | remove i hm hn hr =>
    left
    have h0 : sumTo cfg.n (copyBytes cfg ⟨fun j => if j = i then .gone else s.at_ j, s.busy⟩) ≤ sumTo cfg.n (copyBytes cfg s) := sumTo_mono fun j _ => by
      unfold copyBytes
      simp only
      by_cases e : j = i
      · subst e; rw [if_pos rfl]; exact Nat.zero_le _
      · rw [if_neg e]; exact Nat.le_refl _
    have h1 : sumTo cfg.nd (partBytes ⟨fun j => if j = i then .gone else s.at_ j, s.busy⟩) = sumTo cfg.nd (partBytes s) := rfl
    have h2 : sumTo cfg.nd (restBytes cfg ⟨fun j => if j = i then .gone else s.at_ j, s.busy⟩) = sumTo cfg.nd (restBytes cfg s) := rfl
    unfold taken
    omega

theorem spaceInv_steps {cfg : SpaceCfg} {m : Nat} {s t : SpaceState} (hi : SpaceInv cfg s) (h : SpaceSteps cfg m s t) : SpaceInv cfg t := by
  induction h with
  | refl => exact hi
  | tail _ h2 ih => exact spaceInv_step (ih hi) h2

theorem rest_le {cfg : SpaceCfg} {S : Nat} (hS : ∀ i, i < cfg.n → cfg.size i ≤ S) {s : SpaceState} (hi : SpaceInv cfg s) : sumTo cfg.nd (restBytes cfg s) ≤ cfg.nd * S := by
  refine sumTo_le fun d _ => ?_
  unfold restBytes
  cases hb : s.busy d with
  | none => exact Nat.zero_le _
  | some p =>
    obtain ⟨i, k⟩ := p
    have := hS i (hi.busy d i k hb).1
    simp only
    omega

theorem taken_start (cfg : SpaceCfg) : taken cfg .start = 0 := by
  have h1 : sumTo cfg.n (copyBytes cfg .start) = 0 := sumTo_zero fun i _ => rfl
  have h2 : sumTo cfg.nd (partBytes .start) = 0 := sumTo_zero fun i _ => rfl
  have h3 : sumTo cfg.nd (restBytes cfg .start) = 0 := sumTo_zero fun i _ => rfl
  unfold taken
  omega

theorem taken_bound {cfg : SpaceCfg} (hp : cfg.paced = true) (hr : cfg.root = none) (hby : ∀ i, i < cfg.n → cfg.by_ i < cfg.nd) {S : Nat}
    (hS : ∀ i, i < cfg.n → cfg.size i ≤ S) {m : Nat} {s : SpaceState} (h : SpaceSteps cfg m .start s) : taken cfg s = 0 ∨ taken cfg s + cfg.threshold + 1 ≤ cfg.room + cfg.nd * S := by
  generalize ha : SpaceState.start = a at h
  induction h with
  | refl => subst ha; exact .inl (taken_start cfg)
  | tail h1 h2 ih =>
    subst ha
    have ih := ih rfl
    have hi := spaceInv_steps (spaceInv_start cfg) h1
    rcases taken_step hby hi h2 with h3 | ⟨h3, h4, h5⟩
    · rcases ih with e | e
      · left; omega
      · right; omega
    · right
      have h6 := rest_le hS (spaceInv_step hi h2)
      unfold spaceEnough at h3
      rw [hp, hr] at h3
      simp only [spaceUsed, Bool.true_eq_false, false_or] at h3
      unfold taken
      rw [h4, h5]
      omega

/-- **C93, the inputs leave room.** If the cache is on the disk of `/` and there is a URL, then at any time of the run the copies of the inputs take so little that the threshold stays free, up
to the inputs that the downloaders were working on: one for each of them, over all workers. -/
theorem c93_inputs_bounded (cfg : SpaceCfg) (hp : cfg.paced = true) (hr : cfg.root = none) (hby : ∀ i, i < cfg.n → cfg.by_ i < cfg.nd) (S : Nat)
    (hS : ∀ i, i < cfg.n → cfg.size i ≤ S) (m : Nat) (s : SpaceState) (h : SpaceSteps cfg m .start s) :
    sumTo cfg.n (copyBytes cfg s) + sumTo cfg.nd (partBytes s) + cfg.threshold + 1 ≤ cfg.room + cfg.nd * S ∨ sumTo cfg.n (copyBytes cfg s) + sumTo cfg.nd (partBytes s) = 0 := by
  have := taken_bound hp hr hby hS h
  unfold taken at this
  omega

/-- **C93, the disk does not get full** if the threshold is at least what the downloaders may be working on and what the run leaves for good. -/
theorem c93_no_overflow (cfg : SpaceCfg) (hp : cfg.paced = true) (hr : cfg.root = none) (hby : ∀ i, i < cfg.n → cfg.by_ i < cfg.nd) (S : Nat)
    (hS : ∀ i, i < cfg.n → cfg.size i ≤ S) (hT : cfg.nd * S + sumTo cfg.n cfg.out ≤ cfg.threshold + 1) (hroom : sumTo cfg.n cfg.out ≤ cfg.room) (m : Nat) (s : SpaceState)
    (h : SpaceSteps cfg m .start s) : spaceUsed cfg s ≤ cfg.room := by
  have h1 := c93_inputs_bounded cfg hp hr hby S hS m s h
  have h2 : sumTo cfg.n (outBytes cfg s) ≤ sumTo cfg.n cfg.out := sumTo_mono fun i _ => by
    unfold outBytes
    cases s.at_ i <;> simp
  unfold spaceUsed
  omega

/-- How many steps an input is away from its end. -/
def stepsLeft (cfg : SpaceCfg) (s : SpaceState) (i : Nat) : Nat :=
  match s.at_ i with
  | .waiting => cfg.size i + 5
  | .fetching => 4
  | .ready => 3
  | .used => 2
  | .gone => 1

/-- How many steps are left at most. -/
def spaceMeasure (cfg : SpaceCfg) (s : SpaceState) : Nat := sumTo cfg.n (stepsLeft cfg s) + sumTo cfg.nd (restBytes cfg s)

theorem spaceMeasure_step {cfg : SpaceCfg} (hby : ∀ i, i < cfg.n → cfg.by_ i < cfg.nd) {s t : SpaceState} (hi : SpaceInv cfg s) (h : SpaceStep cfg s t) :
    spaceMeasure cfg t < spaceMeasure cfg s := by
  have move : ∀ (t : SpaceState) (i : Nat) (b : InputAt), i < cfg.n → t.at_ = (fun j => if j = i then b else s.at_ j) →
      sumTo cfg.n (stepsLeft cfg t) + stepsLeft cfg s i = sumTo cfg.n (stepsLeft cfg s) + stepsLeft cfg t i := by
    intro t i b hn hj
    refine sumTo_set hn (stepsLeft cfg s) (stepsLeft cfg t) fun j hne => ?_
    have e : t.at_ j = s.at_ j := by rw [hj]; exact if_neg hne
    unfold stepsLeft
    rw [e]
  cases h with
  | begin i hn hw hb hf he =>
    have h0 := move ⟨fun j => if j = i then .fetching else s.at_ j, fun d => if d = cfg.by_ i then some (i, 0) else s.busy d⟩ i _ hn rfl
    have f1 : stepsLeft cfg s i = cfg.size i + 5 := by unfold stepsLeft; rw [hw]
    have f2 : stepsLeft cfg ⟨fun j => if j = i then .fetching else s.at_ j, fun d => if d = cfg.by_ i then some (i, 0) else s.busy d⟩ i = 4 := by unfold stepsLeft; simp
    rw [f1, f2] at h0
    have h2 := sumTo_set (hby i hn) (restBytes cfg s) (restBytes cfg ⟨fun j => if j = i then .fetching else s.at_ j, fun d => if d = cfg.by_ i then some (i, 0) else s.busy d⟩)
      (by intro j hj; unfold restBytes; simp only; rw [if_neg hj])
    have e2 : restBytes cfg s (cfg.by_ i) = 0 := by unfold restBytes; rw [hb]
    have e5 : restBytes cfg ⟨fun j => if j = i then .fetching else s.at_ j, fun d => if d = cfg.by_ i then some (i, 0) else s.busy d⟩ (cfg.by_ i) = cfg.size i := by
      unfold restBytes; simp
    rw [e2, e5] at h2
    unfold spaceMeasure
    omega
  | write d i k m hb hm hk =>
    obtain ⟨a, b, c, e⟩ := hi.busy d i k hb
    have hd : d < cfg.nd := b ▸ hby i a
    have h2 := sumTo_set hd (restBytes cfg s) (restBytes cfg ⟨s.at_, fun e => if e = d then some (i, k + m) else s.busy e⟩) (by intro j hj; unfold restBytes; simp only; rw [if_neg hj])
    have e2 : restBytes cfg s d = cfg.size i - k := by unfold restBytes; rw [hb]
    have e4 : restBytes cfg ⟨s.at_, fun e => if e = d then some (i, k + m) else s.busy e⟩ d = cfg.size i - (k + m) := by unfold restBytes; simp
    rw [e2, e4] at h2
    have h3 : sumTo cfg.n (stepsLeft cfg ⟨s.at_, fun e => if e = d then some (i, k + m) else s.busy e⟩) = sumTo cfg.n (stepsLeft cfg s) := rfl
    unfold spaceMeasure
    omega
  | finish d i hb =>
    obtain ⟨a, b, c, e⟩ := hi.busy d i _ hb
    have hd : d < cfg.nd := b ▸ hby i a
    have h0 := move ⟨fun j => if j = i then .ready else s.at_ j, fun e => if e = d then none else s.busy e⟩ i _ a rfl
    have f1 : stepsLeft cfg s i = 4 := by unfold stepsLeft; rw [c]
    have f2 : stepsLeft cfg ⟨fun j => if j = i then .ready else s.at_ j, fun e => if e = d then none else s.busy e⟩ i = 3 := by unfold stepsLeft; simp
    rw [f1, f2] at h0
    have h2 := sumTo_set hd (restBytes cfg s) (restBytes cfg ⟨fun j => if j = i then .ready else s.at_ j, fun e => if e = d then none else s.busy e⟩)
      (by intro j hj; unfold restBytes; simp only; rw [if_neg hj])
    have e2 : restBytes cfg s d = 0 := by unfold restBytes; rw [hb]; simp
    have e5 : restBytes cfg ⟨fun j => if j = i then .ready else s.at_ j, fun e => if e = d then none else s.busy e⟩ d = 0 := by unfold restBytes; simp
    rw [e2, e5] at h2
    unfold spaceMeasure
    omega
  | use i hn hr =>
    have h0 := move ⟨fun j => if j = i then .used else s.at_ j, s.busy⟩ i _ hn rfl
    have f1 : stepsLeft cfg s i = 3 := by unfold stepsLeft; rw [hr]
    have f2 : stepsLeft cfg ⟨fun j => if j = i then .used else s.at_ j, s.busy⟩ i = 2 := by unfold stepsLeft; simp
    rw [f1, f2] at h0
    have h2 : sumTo cfg.nd (restBytes cfg ⟨fun j => if j = i then .used else s.at_ j, s.busy⟩) = sumTo cfg.nd (restBytes cfg s) := rfl
    unfold spaceMeasure
    omega
  | remove i hm hn hr =>
    have h0 := move ⟨fun j => if j = i then .gone else s.at_ j, s.busy⟩ i _ hn rfl
    have f1 : stepsLeft cfg s i = 2 := by unfold stepsLeft; rw [hr]
    have f2 : stepsLeft cfg ⟨fun j => if j = i then .gone else s.at_ j, s.busy⟩ i = 1 := by unfold stepsLeft; simp
    rw [f1, f2] at h0
    have h2 : sumTo cfg.nd (restBytes cfg ⟨fun j => if j = i then .gone else s.at_ j, s.busy⟩) = sumTo cfg.nd (restBytes cfg s) := rfl
    unfold spaceMeasure
    omega

/-- **C93, a run does not take more than a number of steps that is known before**: five for each input, and one for each of its bytes. -/
theorem c93_bounded (cfg : SpaceCfg) (hby : ∀ i, i < cfg.n → cfg.by_ i < cfg.nd) (m : Nat) (s : SpaceState) (h : SpaceSteps cfg m .start s) :
    m ≤ sumTo cfg.n (fun i => cfg.size i + 5) := by
  have key : ∀ (a t : SpaceState) (m : Nat), SpaceInv cfg a → SpaceSteps cfg m a t → m + spaceMeasure cfg t ≤ spaceMeasure cfg a := by
    intro a t m ha h
    induction h with
    | refl => omega
    | tail h1 h2 ih =>
      have := ih ha
      have := spaceMeasure_step hby (spaceInv_steps ha h1) h2
      omega
  have h1 := key .start s m (spaceInv_start cfg) h
  have h2 : spaceMeasure cfg .start = sumTo cfg.n (fun i => cfg.size i + 5) := by
    unfold spaceMeasure
    have : sumTo cfg.nd (restBytes cfg SpaceState.start) = 0 := sumTo_zero fun i _ => rfl
    rw [this]
    exact sumTo_congr fun i _ => rfl
  omega

theorem least_such {P : Nat → Prop} : ∀ (i : Nat), P i → ∃ k, k ≤ i ∧ P k ∧ ∀ j, j < k → ¬ P j := by
  classical
  intro i
  induction i using Nat.strongRecOn with
  | ind i ih =>
    intro h
    by_cases hx : ∃ j, j < i ∧ P j
    · obtain ⟨j, h1, h2⟩ := hx
      obtain ⟨k, k1, k2, k3⟩ := ih j h1 h2
      exact ⟨k, by omega, k2, k3⟩
    · exact ⟨i, Nat.le_refl _, h, fun j hj e => hx ⟨j, hj, e⟩⟩

/-- **C93, the run goes on.** If copies are removed after use, and the threshold is free on the disk beside what the run leaves on it for good, then in every state of the run either all inputs
were used and their copies removed, or some process can take a step. With `c93_bounded`, every run that goes on as long as it can comes to its end. -/
theorem c93_goes_on (cfg : SpaceCfg) (hrem : cfg.remove = true)
    (hfree : cfg.paced = false ∨ (cfg.root = none ∧ cfg.threshold + sumTo cfg.n cfg.out < cfg.room) ∨ ∃ free, cfg.root = some free ∧ cfg.threshold < free)
    (m : Nat) (s : SpaceState) (h : SpaceSteps cfg m .start s) : (∀ i, i < cfg.n → s.at_ i = .gone) ∨ ∃ t, SpaceStep cfg s t := by
  have hi := spaceInv_steps (spaceInv_start cfg) h
  by_cases hb : ∃ d p, s.busy d = some p
  · obtain ⟨d, ⟨i, k⟩, hb⟩ := hb
    right
    have hk := (hi.busy d i k hb).2.2.2
    by_cases e : k = cfg.size i
    · subst e
      exact ⟨_, .finish s d i hb⟩
    · exact ⟨_, .write s d i k 1 hb (by omega) (by omega)⟩
  · have hnone : ∀ d, s.busy d = none := by
      intro d
      cases hd : s.busy d with
      | none => rfl
      | some p => exact absurd ⟨d, p, hd⟩ hb
    by_cases hr : ∃ i, i < cfg.n ∧ s.at_ i = .ready
    · obtain ⟨i, h1, h2⟩ := hr
      exact .inr ⟨_, .use s i h1 h2⟩
    · by_cases hu : ∃ i, i < cfg.n ∧ s.at_ i = .used
      · obtain ⟨i, h1, h2⟩ := hu
        exact .inr ⟨_, .remove s i hrem h1 h2⟩
      · by_cases hw : ∃ i, i < cfg.n ∧ s.at_ i = .waiting
        · obtain ⟨i, h1, h2⟩ := hw
          obtain ⟨k, k1, k2, k3⟩ := least_such (P := fun i => s.at_ i = .waiting) i h2
          refine .inr ⟨_, .begin s k (by omega) k2 (hnone _) (fun j hj _ => k3 j hj) ?_⟩
          unfold spaceEnough
          rcases hfree with e | ⟨e1, e2⟩ | ⟨free, e1, e2⟩
          · exact .inl e
          · right
            rw [e1]
            have u1 : sumTo cfg.n (copyBytes cfg s) = 0 := sumTo_zero fun j hj => by
              unfold copyBytes
              cases hj' : s.at_ j with
              | ready => exact absurd ⟨j, hj, hj'⟩ hr
              | used => exact absurd ⟨j, hj, hj'⟩ hu
              | _ => rfl
            have u2 : sumTo cfg.nd (partBytes s) = 0 := sumTo_zero fun d _ => by unfold partBytes; rw [hnone]
            have u3 : sumTo cfg.n (outBytes cfg s) ≤ sumTo cfg.n cfg.out := sumTo_mono fun j _ => by
              unfold outBytes
              cases s.at_ j <;> simp
            simp only [spaceUsed]
            omega
          · right
            rw [e1]
            exact e2
        · left
          intro i hn
          cases hs : s.at_ i with
          | gone => rfl
          | waiting => exact absurd ⟨i, hn, hs⟩ hw
          | ready => exact absurd ⟨i, hn, hs⟩ hr
          | used => exact absurd ⟨i, hn, hs⟩ hu
          | fetching =>
            obtain ⟨k, hk⟩ := hi.fetching i hn hs
            rw [hnone] at hk
            cases hk

/-- **C93, a disk on which not more than the threshold is free.** Nothing is ever downloaded, however small the inputs are: the downloaders wait for ever. This is so if 25 GB or less are free on
`/` before the run, even if the cache is on another disk. -/
theorem c93_small_disk (cfg : SpaceCfg) (hp : cfg.paced = true) (hsmall : (cfg.root = none ∧ cfg.room ≤ cfg.threshold) ∨ ∃ free, cfg.root = some free ∧ free ≤ cfg.threshold)
    (m : Nat) (s : SpaceState) (h : SpaceSteps cfg m .start s) : m = 0 ∧ s = .start := by
  generalize ha : SpaceState.start = a at h
  induction h with
  | refl => exact ⟨rfl, rfl⟩
  | tail h1 h2 ih =>
    subst ha
    obtain ⟨-, rfl⟩ := ih rfl
    exfalso
    cases h2 with
    | begin i _ _ _ _ he =>
      unfold spaceEnough at he
      rw [hp] at he
      rcases hsmall with ⟨e1, e2⟩ | ⟨free, e1, e2⟩ <;> rw [e1] at he <;> simp only [Bool.true_eq_false, false_or] at he <;> omega
    | write d i k m hb => cases hb
    | finish d i hb => cases hb
    | use i _ hr => cases hr
    | remove i _ _ hr => cases hr

theorem nothing_gone {cfg : SpaceCfg} (hrem : cfg.remove = false) {m : Nat} {s : SpaceState} (h : SpaceSteps cfg m .start s) : ∀ i, s.at_ i ≠ .gone := by
  generalize ha : SpaceState.start = a at h
  induction h with
  | refl => subst ha; intro i e; cases e
  | tail h1 h2 ih =>
    have ih := ih ha
    intro i e
    cases h2 with
    | begin j => simp only at e; split at e <;> first | cases e | exact ih i e
    | write => exact ih i e
    | finish => simp only at e; split at e <;> first | cases e | exact ih i e
    | use => simp only at e; split at e <;> first | cases e | exact ih i e
    | remove _ hm => rw [hrem] at hm; cases hm

/-- **C93, without removal the run comes to a stop** if the inputs do not all fit beside the threshold: in no state were all of them used. -/
theorem c93_never (cfg : SpaceCfg) (hp : cfg.paced = true) (hr : cfg.root = none) (hrem : cfg.remove = false) (hby : ∀ i, i < cfg.n → cfg.by_ i < cfg.nd) (S : Nat)
    (hS : ∀ i, i < cfg.n → cfg.size i ≤ S) (hpos : 0 < sumTo cfg.n cfg.size) (hmuch : cfg.room + cfg.nd * S ≤ sumTo cfg.n cfg.size + cfg.threshold)
    (m : Nat) (s : SpaceState) (h : SpaceSteps cfg m .start s) : ∃ i, i < cfg.n ∧ s.at_ i ≠ .used ∧ s.at_ i ≠ .gone := by
  classical
  apply Classical.byContradiction
  intro hno
  have hgone := nothing_gone hrem h
  have hall : sumTo cfg.n (copyBytes cfg s) = sumTo cfg.n cfg.size := sumTo_congr fun i hi => by
    have : s.at_ i = .used := Classical.byContradiction fun e => hno ⟨i, hi, e, hgone i⟩
    unfold copyBytes
    rw [this]
  have := c93_inputs_bounded cfg hp hr hby S hS m s h
  omega

theorem spaceSteps_trans {cfg : SpaceCfg} {m k : Nat} {s t u : SpaceState} (h : SpaceSteps cfg m s t) (h' : SpaceSteps cfg k t u) : SpaceSteps cfg (m + k) s u := by
  induction h' with
  | refl => exact h
  | tail _ h2 ih => exact (ih h).tail h2

/-- The first `k` inputs are there and nothing else was done. -/
def firstReady (k : Nat) : SpaceState := ⟨fun i => if i < k then .ready else .waiting, fun _ => none⟩

/-- A downloader downloads the next input. -/
theorem fetch_next {cfg : SpaceCfg} {k : Nat} (hk : k < cfg.n) (he : spaceEnough cfg (firstReady k)) : ∃ m, SpaceSteps cfg m (firstReady k) (firstReady (k + 1)) := by
  have h1 : SpaceStep cfg (firstReady k) _ := .begin (firstReady k) k hk (by simp [firstReady]) rfl (by intro j hj _; simp [firstReady, hj]) he
  have hlast : ∀ s : SpaceState, s.at_ = (fun j => if j = k then .fetching else (firstReady k).at_ j) → s.busy = (fun d => if d = cfg.by_ k then some (k, cfg.size k) else none) →
      SpaceStep cfg s (firstReady (k + 1)) := by
    intro s hs hb
    have h : SpaceStep cfg s _ := .finish s (cfg.by_ k) k (by rw [hb]; exact if_pos rfl)
    have e : (⟨fun j => if j = k then .ready else s.at_ j, fun e => if e = cfg.by_ k then none else s.busy e⟩ : SpaceState) = firstReady (k + 1) := by
      unfold firstReady
      congr 1
      · funext j
        rw [hs]
        by_cases e : j = k
        · subst e; rw [if_pos rfl, if_pos (by omega)]
        · simp only [if_neg e, firstReady]
          by_cases e' : j < k
          · rw [if_pos e', if_pos (by omega)]
          · rw [if_neg e', if_neg (by omega)]
      · funext d
        rw [hb]
        by_cases e : d = cfg.by_ k
        · rw [if_pos e]
        · simp only [if_neg e]
    rw [← e]
    exact h
  by_cases hz : cfg.size k = 0
  · refine ⟨_, ((SpaceSteps.refl _).tail h1).tail (hlast _ rfl ?_)⟩
    rw [hz]
    rfl
  · refine ⟨_, (((SpaceSteps.refl _).tail h1).tail (.write _ (cfg.by_ k) k 0 (cfg.size k) (if_pos rfl) (by omega) (by omega))).tail (hlast _ rfl ?_)⟩
    funext d
    simp only [Nat.zero_add]
    by_cases e : d = cfg.by_ k
    · rw [if_pos e, if_pos e]
    · simp only [if_neg e]
      rfl

/-- **C93, a cache on another disk gets full.** The wait looks at `/`. If the cache is on another disk, or there is no URL, all inputs can come to lie in the cache together before the first one is
used, whatever there is room for. -/
theorem c93_other_disk (cfg : SpaceCfg) (h : cfg.paced = false ∨ ∃ free, cfg.root = some free ∧ cfg.threshold < free) :
    ∃ m s, SpaceSteps cfg m .start s ∧ spaceUsed cfg s = sumTo cfg.n cfg.size := by
  have he : ∀ s, spaceEnough cfg s := by
    intro s
    unfold spaceEnough
    rcases h with e | ⟨free, e1, e2⟩
    · exact .inl e
    · right; rw [e1]; exact e2
  have key : ∀ k, k ≤ cfg.n → ∃ m, SpaceSteps cfg m .start (firstReady k) := by
    intro k
    induction k with
    | zero => intro _; exact ⟨0, .refl _⟩
    | succ k ih =>
      intro hk
      obtain ⟨m, hm⟩ := ih (by omega)
      obtain ⟨m', hm'⟩ := fetch_next (cfg := cfg) (k := k) (by omega) (he _)
      exact ⟨m + m', spaceSteps_trans hm hm'⟩
  obtain ⟨m, hm⟩ := key cfg.n (Nat.le_refl _)
  refine ⟨m, _, hm, ?_⟩
  have h1 : sumTo cfg.n (copyBytes cfg (firstReady cfg.n)) = sumTo cfg.n cfg.size := sumTo_congr fun i hi => by
    unfold copyBytes firstReady
    simp [hi]
  have h2 : sumTo cfg.n (outBytes cfg (firstReady cfg.n)) = 0 := sumTo_zero fun i hi => by
    unfold outBytes firstReady
    simp [hi]
  have h3 : sumTo cfg.nd (partBytes (firstReady cfg.n)) = 0 := sumTo_zero fun i _ => rfl
  unfold spaceUsed
  omega

/-! Cases that meet the hypotheses: three inputs of 4, 6 and 5 bytes, two downloaders, a threshold of 10. -/

/-- On a disk with `room` bytes free. -/
def threeInputs (room : Nat) (root : Option Nat) (remove : Bool) : SpaceCfg := ⟨3, 2, fun i => i % 2, fun i => if i = 0 then 4 else if i = 1 then 6 else 5, fun _ => 0, 10, room, root, true, remove⟩

theorem threeInputs_ok (room : Nat) (root : Option Nat) (remove : Bool) : (∀ i, i < (threeInputs room root remove).n → (threeInputs room root remove).by_ i < (threeInputs room root remove).nd) ∧
    ∀ i, i < (threeInputs room root remove).n → (threeInputs room root remove).size i ≤ 6 := by
  constructor
  · intro i _; show i % 2 < 2; omega
  · intro i _; show (if i = 0 then 4 else if i = 1 then 6 else 5) ≤ 6; split <;> (try split) <;> omega

/-- With 14 bytes free, in any state at most 15 are taken by copies, and the run goes on to its end. -/
example (m : Nat) (s : SpaceState) (h : SpaceSteps (threeInputs 14 none true) m .start s) : sumTo 3 (copyBytes (threeInputs 14 none true) s) + sumTo 2 (partBytes s) ≤ 15 ∧ m ≤ 30 ∧
    ((∀ i, i < 3 → s.at_ i = .gone) ∨ ∃ t, SpaceStep (threeInputs 14 none true) s t) := by
  obtain ⟨h1, h2⟩ := threeInputs_ok 14 none true
  have a := c93_inputs_bounded (threeInputs 14 none true) rfl rfl h1 6 h2 m s h
  have b := c93_bounded (threeInputs 14 none true) h1 m s h
  have c : sumTo (threeInputs 14 none true).n (fun i => (threeInputs 14 none true).size i + 5) = 30 := rfl
  refine ⟨?_, by omega, c93_goes_on (threeInputs 14 none true) rfl (.inr (.inl ⟨rfl, by decide⟩)) m s h⟩
  have e1 : (threeInputs 14 none true).n = 3 := rfl
  have e2 : (threeInputs 14 none true).nd = 2 := rfl
  have e3 : (threeInputs 14 none true).room = 14 := rfl
  have e4 : (threeInputs 14 none true).threshold = 10 := rfl
  rw [e1, e2, e3, e4] at a
  omega

/-- With 25 bytes free the disk cannot get full, since the threshold of a larger one is above what the downloaders may be working on. -/
example (m : Nat) (s : SpaceState) (h : SpaceSteps { threeInputs 25 none true with threshold := 12 } m .start s) : spaceUsed { threeInputs 25 none true with threshold := 12 } s ≤ 25 := by
  obtain ⟨h1, h2⟩ := threeInputs_ok 25 none true
  exact c93_no_overflow { threeInputs 25 none true with threshold := 12 } rfl rfl h1 6 h2 (by decide) (by decide) m s h

/-- With 10 bytes free nothing is ever downloaded, though the first input has 4; the same if 10 are free on `/` and much on the disk of the cache. -/
example : (∀ m s, SpaceSteps (threeInputs 10 none true) m .start s → s = .start) ∧ ∀ m s, SpaceSteps (threeInputs 1000 (some 10) true) m .start s → s = .start :=
  ⟨fun m s h => (c93_small_disk _ rfl (.inl ⟨rfl, by decide⟩) m s h).2, fun m s h => (c93_small_disk _ rfl (.inr ⟨10, rfl, by decide⟩) m s h).2⟩

/-- With 11 bytes free and no removal one input is never used. -/
example (m : Nat) (s : SpaceState) (h : SpaceSteps (threeInputs 11 none false) m .start s) : ∃ i, i < 3 ∧ s.at_ i ≠ .used ∧ s.at_ i ≠ .gone :=
  c93_never (threeInputs 11 none false) rfl rfl rfl (threeInputs_ok 11 none false).1 6 (threeInputs_ok 11 none false).2 (by decide) (by decide) m s h

/-- With much free on `/`, a disk of the cache with room for 7 bytes comes to hold 15. -/
example : ∃ m s, SpaceSteps (threeInputs 7 (some 1000) true) m .start s ∧ spaceUsed (threeInputs 7 (some 1000) true) s = 15 :=
  c93_other_disk (threeInputs 7 (some 1000) true) (.inr ⟨1000, rfl, by decide⟩)

/-- **C93, outputs that stay on the disk stop the run.** The copies of all inputs that were begun are removed, but what the workers have left for them takes the space up
to the threshold: no further input is begun, and nothing else happens. -/
theorem c93_outputs_stop (cfg : SpaceCfg) (hp : cfg.paced = true) (hr : cfg.root = none) (s : SpaceState) (hat : ∀ i, i < cfg.n → s.at_ i = .waiting ∨ s.at_ i = .gone)
    (hb : ∀ d, s.busy d = none) (hfull : cfg.room ≤ cfg.threshold + sumTo cfg.n (fun i => if s.at_ i = .gone then cfg.out i else 0)) : ¬ ∃ t, SpaceStep cfg s t := by
  have hout : sumTo cfg.n (outBytes cfg s) = sumTo cfg.n (fun i => if s.at_ i = .gone then cfg.out i else 0) := sumTo_congr fun i hi => by
    unfold outBytes
    rcases hat i hi with e | e <;> simp [e]
  rintro ⟨t, h⟩
  cases h with
  | begin i h1 h2 h3 h4 h5 =>
    unfold spaceEnough at h5
    rw [hp, hr] at h5
    rcases h5 with h5 | h5
    · cases h5
    · unfold spaceUsed at h5
      simp only at h5
      omega
  | write d i k m h1 => rw [hb d] at h1; cases h1
  | finish d i h1 => rw [hb d] at h1; cases h1
  | use i h1 h2 => rcases hat i h1 with e | e <;> rw [e] at h2 <;> cases h2
  | remove i h0 h1 h2 => rcases hat i h1 with e | e <;> rw [e] at h2 <;> cases h2

/-- Two of three inputs were used, and their outputs take 30 bytes. -/
example := c93_outputs_stop ⟨3, 2, fun i => i % 2, fun _ => 5, fun _ => 15, 10, 40, none, true, true⟩ rfl rfl ⟨fun i => if i < 2 then .gone else .waiting, fun _ => none⟩
  (by intro i _; simp only; split <;> simp) (fun _ => rfl) (by decide)

end LitData.Props
