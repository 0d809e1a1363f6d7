import Verif.Spec.Walk

/-! C47: `walk` lists every folder once. -/

namespace LitData.Props

open LitData Spec

theorem walkFill_append (mw p : Nat) (folders later : List WalkTask) :
    (walkFill mw p folders later).2 ++ (walkFill mw p folders later).1 = later ++ folders := by
  induction folders generalizing later with
  | nil => simp [walkFill]
  | cons f folders ih =>
    simp only [walkFill]
    split
    · rw [ih]; simp
    · rfl

theorem walkFill_stuck (mw p : Nat) (folders later : List WalkTask) (h : (walkFill mw p folders later).1 ≠ []) :
    mw * 2 < p + (walkFill mw p folders later).2.length := by
  induction folders generalizing later with
  | nil => simp [walkFill] at h
  | cons f folders ih =>
    simp only [walkFill] at h ⊢
    split
    · rename_i hc
      rw [if_pos hc] at h
      exact ih _ h
    · simp only; omega

/-- Everything that is still to be listed. -/
def todo (s : WalkState) : List WalkTask := s.pending ++ s.later ++ s.folders

theorem osWalkAll_eq (path : String) (entries : List (String × FsNode)) :
    osWalkAll path entries = (listedFolders entries).flatMap fun e => osWalk (pathJoin path e.1) e.2 := by
  induction entries with
  | nil => rfl
  | cons e entries ih =>
    obtain ⟨name, node⟩ := e
    simp only [osWalkAll, listedFolders, List.filter_cons]
    cases node <;> simp [FsNode.isFile, osWalk, ih, listedFolders]

theorem osWalk_dir (path : String) (entries : List (String × FsNode)) :
    osWalk path (.dir entries) = (path, (listedFolders entries).map (·.1), listedFiles entries) ::
      ((listedFolders entries).map fun e => (pathJoin path e.1, e.2)).flatMap fun t => osWalk t.1 t.2 := by
  simp only [osWalk, osWalkAll_eq, List.flatMap_map, listedFolders, listedFiles]

theorem readableAll_iff (entries : List (String × FsNode)) : readableAll entries = true ↔ ∀ e ∈ entries, readable e.2 = true := by
  induction entries with
  | nil => simp [readableAll]
  | cons e entries ih => simp [readableAll, ih]

theorem readable_dir (entries : List (String × FsNode)) :
    readable (.dir entries) = true ↔ ∀ e ∈ listedFolders entries, readable e.2 = true := by
  simp only [readable, readableAll_iff, listedFolders]
  constructor
  · intro h e he
    exact h e (List.mem_filter.1 he).1
  · intro h e he
    by_cases hf : e.2.isFile = true
    · obtain ⟨n, node⟩ := e
      cases node <;> simp_all [FsNode.isFile, readable]
    · exact h e (List.mem_filter.2 ⟨he, by simpa using hf⟩)

/-- What holds throughout. -/
structure WalkInv (folder : String) (root : FsNode) (s : WalkState) : Prop where
  all : (s.out ++ (todo s).flatMap fun t => osWalk t.1 t.2).Perm (osWalk folder root)
  notStuck : s.folders ≠ [] → 0 < s.pending.length + s.later.length
  folder : ∀ t ∈ todo s, t.2.isFile = false
  readable : readable root = true ↔ s.failed = false ∧ ∀ t ∈ todo s, readable t.2 = true

theorem walkInv_init (folder : String) (root : FsNode) (hroot : root.isFile = false) : WalkInv folder root (WalkState.init folder root) := by
  refine ⟨by simp [WalkState.init, todo], by simp [WalkState.init], by simpa [WalkState.init, todo] using hroot,
    by simp [WalkState.init, todo]⟩

theorem walkInv_step {mw : Nat} {folder : String} {root : FsNode} {s t : WalkState} (h : WalkInv folder root s)
    (hst : WalkStep mw s t) : WalkInv folder root t := by
  obtain ⟨h1, h2, h4, h3⟩ := h
  cases hst with
  | round hp hl hf =>
    have ht : todo { s with pending := s.later, later := [] } = todo s := by simp [todo, hp]
    refine ⟨by rw [ht]; exact h1, ?_, by rw [ht]; exact h4, by rw [ht]; exact h3⟩
    intro _
    exact Nat.add_pos_left (List.length_pos_iff.2 hl) _
  | complete a b path entries hp hf =>
    generalize hnew : ((listedFolders entries).map fun e => (pathJoin path e.1, e.2)) = new
    have happ := walkFill_append mw (a ++ b).length (s.folders ++ new) s.later
    have hstuck := walkFill_stuck mw (a ++ b).length (s.folders ++ new) s.later
    simp only
    generalize hr : walkFill mw (a ++ b).length (s.folders ++ new) s.later = r at *
    have ht : todo ⟨r.1, a ++ b, r.2, s.out ++ [(path, (listedFolders entries).map (·.1), listedFiles entries)], false⟩
        = (a ++ b) ++ (s.later ++ (s.folders ++ new)) := by
      simp only [todo, List.append_assoc]
      rw [happ]
    have hold : (todo s).Perm ((path, .dir entries) :: ((a ++ b) ++ (s.later ++ s.folders))) := by
      simp [todo, hp]
    have hnewt : ((a ++ b) ++ (s.later ++ (s.folders ++ new))).Perm (new ++ ((a ++ b) ++ (s.later ++ s.folders))) := by
      have := (List.perm_append_comm (l₁ := (a ++ b) ++ (s.later ++ s.folders)) (l₂ := new))
      simpa using this
    refine ⟨?_, ?_, ?_, ?_⟩
    · rw [ht]
      refine List.Perm.trans ?_ h1
      rw [List.append_assoc]
      refine List.Perm.append_left _ ?_
      refine List.Perm.trans (List.Perm.append_left _ (List.Perm.flatMap_right _ hnewt)) ?_
      refine List.Perm.trans ?_ (List.Perm.flatMap_right _ hold).symm
      simp only [List.flatMap_cons, osWalk_dir, hnew, List.flatMap_append, List.cons_append, List.nil_append]
      exact List.Perm.refl _
    · intro hne
      have := hstuck hne
      simp only
      omega
    · rw [ht]
      intro x hx
      rcases List.mem_append.1 ((hnewt.mem_iff).1 hx) with hx' | hx'
      · rw [← hnew] at hx'
        obtain ⟨e, he, rfl⟩ := List.mem_map.1 hx'
        simpa using (List.mem_filter.1 he).2
      · exact h4 x ((hold.mem_iff).2 (List.mem_cons_of_mem _ hx'))
    · rw [h3, ht]
      simp only [hf, true_and]
      constructor
      · intro h x hx
        have hx' := (hnewt.mem_iff).1 hx
        rcases List.mem_append.1 hx' with hx' | hx'
        · have hd := h (path, .dir entries) ((hold.mem_iff).2 (List.mem_cons_self ..))
          rw [← hnew] at hx'
          obtain ⟨e, he, rfl⟩ := List.mem_map.1 hx'
          exact (readable_dir entries).1 hd e he
        · exact h x ((hold.mem_iff).2 (List.mem_cons_of_mem _ hx'))
      · intro h x hx
        rcases List.mem_cons.1 ((hold.mem_iff).1 hx) with rfl | hx'
        · refine (readable_dir entries).2 fun e he => ?_
          exact h (pathJoin path e.1, e.2) ((hnewt.mem_iff).2 (List.mem_append_left _ (by rw [← hnew]; exact List.mem_map.2 ⟨e, he, rfl⟩)))
        · exact h x ((hnewt.mem_iff).2 (List.mem_append_right _ hx'))
  | fail a b path node hp hn hf =>
    refine ⟨h1, h2, h4, ?_⟩
    have hm : (path, node) ∈ todo s := by simp [todo, hp]
    constructor
    · intro h
      exfalso
      have hr := (h3.1 h).2 _ hm
      have hd := h4 _ hm
      cases node with
      | file => simp [FsNode.isFile] at hd
      | other => simp [readable] at hr
      | dir entries => exact hn entries rfl
    · intro h
      cases h.1

theorem walkInv_steps {mw : Nat} {folder : String} {root : FsNode} {s t : WalkState} (h : WalkInv folder root s)
    (hst : WalkSteps mw s t) : WalkInv folder root t := by
  induction hst with
  | refl => exact h
  | tail _ hs ih => exact walkInv_step ih hs

/-- C47. For every tree, number of threads and order in which the listings complete: when the generator returns, it has yielded
every folder of the tree once, with the names in it. -/
theorem c47_walk {mw : Nat} {folder : String} {root : FsNode} {s : WalkState} (hroot : root.isFile = false)
    (hst : WalkSteps mw (.init folder root) s) (hr : s.returned) : s.out.Perm (osWalk folder root) := by
  have h := walkInv_steps (walkInv_init folder root hroot) hst
  obtain ⟨_, hp, hl⟩ := hr
  have hf : s.folders = [] := by
    by_cases hf : s.folders = []
    · exact hf
    · have := h.notStuck hf
      simp [hp, hl] at this
  have := h.all
  simpa [todo, hp, hl, hf] using this

/-- At every moment no folder was yielded twice: what was yielded is a part of the list. -/
theorem c47_never_twice {mw : Nat} {folder : String} {root : FsNode} {s : WalkState} (hroot : root.isFile = false)
    (hst : WalkSteps mw (.init folder root) s) : ∃ rest, (s.out ++ rest).Perm (osWalk folder root) :=
  ⟨_, (walkInv_steps (walkInv_init folder root hroot) hst).all⟩

mutual
/-- The number of paths at or below a path. -/
def nodes : FsNode → Nat
  | .dir entries => 1 + nodesAll entries
  | _ => 1

/-- The same for every entry of a folder. -/
def nodesAll : List (String × FsNode) → Nat
  | [] => 0
  | e :: entries => nodes e.2 + nodesAll entries
end

theorem nodes_listed (path : String) (entries : List (String × FsNode)) :
    (((listedFolders entries).map fun e => (pathJoin path e.1, e.2)).map fun t => nodes t.2).sum ≤ nodesAll entries := by
  induction entries with
  | nil => simp [listedFolders]
  | cons e entries ih =>
    simp only [listedFolders] at ih
    simp only [listedFolders, List.filter_cons, nodesAll]
    split
    · simp only [List.map_cons, List.sum_cons]; omega
    · omega

/-- How much is left to do. -/
def walkMeasure (s : WalkState) : Nat :=
  if s.failed then 0 else 1 + 2 * ((todo s).map fun t => nodes t.2).sum + (if s.pending.isEmpty then 1 else 0)

theorem walkMeasure_step {mw : Nat} {s t : WalkState} (hst : WalkStep mw s t) : walkMeasure t < walkMeasure s := by
  cases hst with
  | round hp hl hf =>
    have ht : todo { s with pending := s.later, later := [] } = todo s := by simp [todo, hp]
    have hm : ((todo { s with pending := s.later, later := [] }).map fun t => nodes t.2).sum
        = ((todo s).map fun t => nodes t.2).sum := by rw [ht]
    simp only [hf] at hm
    simp [walkMeasure, hf, hp, hl, hm]
  | complete a b path entries hp hf =>
    have hn : (((listedFolders entries).map fun e => ((pathJoin path e.1, e.2) : WalkTask)).map fun (t : WalkTask) => nodes t.2).sum
        ≤ nodesAll entries := nodes_listed path entries
    generalize hnew : ((listedFolders entries).map fun e => (pathJoin path e.1, e.2)) = new at *
    have happ := walkFill_append mw (a ++ b).length (s.folders ++ new) s.later
    simp only
    generalize hr : walkFill mw (a ++ b).length (s.folders ++ new) s.later = r at *
    have hs : ((r.2 ++ r.1).map fun t => nodes t.2).sum = ((s.later ++ (s.folders ++ new)).map fun t => nodes t.2).sum := by rw [happ]
    simp only [List.map_append, List.sum_append] at hs
    simp only [walkMeasure, hf, todo, hp, List.map_append, List.sum_append, List.map_cons, List.sum_cons, nodes, Bool.false_eq_true,
      if_false]
    have hne : (a ++ (path, FsNode.dir entries) :: b).isEmpty = false := by cases a <;> rfl
    simp only [hne, Bool.false_eq_true, if_false]
    split <;> omega
  | fail a b path node hp hn hf => simp [walkMeasure, hf]; omega

/-- The generator never runs for ever: whatever completes first, the steps come to an end. -/
theorem c47_terminates (mw : Nat) : WellFounded fun t s => WalkStep mw s t :=
  Subrelation.wf (r := InvImage (· < ·) walkMeasure) (fun h => walkMeasure_step h) (InvImage.wf _ Nat.lt_wfRel.wf)

/-- It stops only by returning or by raising: otherwise each listing that was asked for can complete. -/
theorem c47_progress (mw : Nat) (s : WalkState) (hf : s.failed = false) (hr : ¬ s.returned) : ∃ t, WalkStep mw s t := by
  cases hp : s.pending with
  | nil =>
    exact ⟨_, .round s hp (fun hl => hr ⟨hf, hp, hl⟩) hf⟩
  | cons x rest =>
    obtain ⟨path, node⟩ := x
    cases node with
    | dir entries => exact ⟨_, .complete s [] rest path entries hp hf⟩
    | file => exact ⟨_, .fail s [] rest path .file hp (fun _ h => by cases h) hf⟩
    | other => exact ⟨_, .fail s [] rest path .other hp (fun _ h => by cases h) hf⟩

/-- It never raises when everything can be listed. -/
theorem c47_no_error {mw : Nat} {folder : String} {root : FsNode} {s : WalkState} (hroot : root.isFile = false)
    (hst : WalkSteps mw (.init folder root) s) (hread : readable root = true) : s.failed = false :=
  ((walkInv_steps (walkInv_init folder root hroot) hst).readable.1 hread).1

/-- And it never returns when there is a broken link anywhere in the tree: `os.path.isfile` is false for it, so that it is taken for a
folder. -/
theorem c47_broken_link {mw : Nat} {folder : String} {root : FsNode} {s : WalkState} (hroot : root.isFile = false)
    (hst : WalkSteps mw (.init folder root) s) (hread : readable root = false) : ¬ s.returned := by
  intro hr
  have h := walkInv_steps (walkInv_init folder root hroot) hst
  obtain ⟨hf, hp, hl⟩ := hr
  have hfo : s.folders = [] := by
    by_cases hf : s.folders = []
    · exact hf
    · have := h.notStuck hf
      simp [hp, hl] at this
  have := h.readable.2 ⟨hf, by simp [todo, hp, hl, hfo]⟩
  rw [hread] at this
  cases this

/-- A second iteration over the same `walk` object yields nothing: `self.folders` and `self.futures` are empty
(`processing/functions.py:545, 550`). -/
theorem c47_second_pass {mw : Nat} {folder : String} {root : FsNode} {s : WalkState} (hroot : root.isFile = false)
    (hst : WalkSteps mw (.init folder root) s) (hr : s.returned) : s.folders = [] ∧ s.futures = 0 := by
  have h := walkInv_steps (walkInv_init folder root hroot) hst
  obtain ⟨_, hp, hl⟩ := hr
  refine ⟨?_, by simp [WalkState.futures, hp, hl]⟩
  by_cases hf : s.folders = []
  · exact hf
  · have := h.notStuck hf
    simp [hp, hl] at this

/-- A tree of three folders and two files. -/
def smallTree : FsNode := .dir [("a", .dir [("x", .file), ("c", .dir [])]), ("y", .file)]

example : osWalk "r" smallTree = [("r", ["a"], ["y"]), ("r/a", ["c"], ["x"]), ("r/a/c", [], [])] := by decide +kernel
example : smallTree.isFile = false ∧ readable smallTree = true := by decide

/-- Every run over a readable tree can be carried on until the generator returns. -/
theorem c47_returns {mw : Nat} {folder : String} {root : FsNode} {s : WalkState} (hroot : root.isFile = false)
    (hread : readable root = true) (hst : WalkSteps mw (.init folder root) s) :
    ∃ t, WalkSteps mw (.init folder root) t ∧ WalkSteps mw s t ∧ t.returned := by
  induction s using (c47_terminates mw).induction with
  | _ s ih =>
    by_cases hr : s.returned
    · exact ⟨s, hst, .refl s, hr⟩
    · obtain ⟨u, hu⟩ := c47_progress mw s (c47_no_error hroot hst hread) hr
      obtain ⟨t, h1, h2, h3⟩ := ih u hu (.tail hst hu)
      refine ⟨t, h1, ?_, h3⟩
      clear ih h1 h3
      induction h2 with
      | refl => exact .tail (.refl s) hu
      | tail _ hs ih2 => exact .tail ih2 hs

example : ∃ s, WalkSteps 1 (.init "r" smallTree) s ∧ s.returned ∧ s.out.Perm (osWalk "r" smallTree) := by
  obtain ⟨t, h, _, hr⟩ := c47_returns (mw := 1) (folder := "r") (root := smallTree) rfl rfl (.refl _)
  exact ⟨t, h, hr, c47_walk rfl h hr⟩

/-- A tree with a broken link. -/
example : readable (.dir [("a", .dir [("link", .other)])]) = false := by decide

end LitData.Props
