import Verif.Model.RemoteJob

/-!
**C96.** A call of `map` or `optimize` with `num_nodes` runs the same script with the same arguments on the machines and ends with the job. Exactly the arguments without blanks arrive
unchanged; a job that someone stops counts as completed; and as the job runs the whole script, a script with several calls works exactly if each of them is done once or may be done
again.
-/

namespace LitData.Props

open LitData

/-- A text that is one word for a shell. -/
def PlainWord (w : List Char) : Prop := w ≠ [] ∧ ∀ c ∈ w, isShellBlank c = false

private theorem words_plain (cur w : List Char) (hw : ∀ c ∈ w, isShellBlank c = false) (rest : List Char) :
    blankWordsFrom cur (w ++ rest) = blankWordsFrom (cur ++ w) rest := by
  induction w generalizing cur with
  | nil => simp
  | cons c w ih =>
    rw [List.cons_append]
    conv => lhs; unfold blankWordsFrom
    rw [hw c (by simp), if_neg (by simp), ih (cur ++ [c]) (fun x hx => hw x (by simp [hx]))]
    simp

private theorem words_append (cur a : List Char) (b : List Char) : blankWordsFrom cur (a ++ ' ' :: b) = blankWordsFrom cur a ++ blankWords b := by
  induction a generalizing cur with
  | nil =>
    rw [List.nil_append]
    conv => lhs; unfold blankWordsFrom
    rw [if_pos (by decide)]
    rfl
  | cons c a ih =>
    rw [List.cons_append]
    conv => lhs; unfold blankWordsFrom
    conv => rhs; unfold blankWordsFrom
    split
    · rw [ih, List.append_assoc]
    · rw [ih]

private theorem words_one (w : List Char) (h : PlainWord w) : blankWords w = [w] := by
  have := words_plain [] w h.2 []
  rw [List.append_nil, List.nil_append] at this
  rw [blankWords, this]
  simp [blankWordsFrom, h.1]

private theorem words_are_plain (cur s : List Char) (hc : ∀ c ∈ cur, isShellBlank c = false) : ∀ w ∈ blankWordsFrom cur s, PlainWord w := by
  induction s generalizing cur with
  | nil =>
    intro w hw
    unfold blankWordsFrom at hw
    split at hw
    · cases hw
    · rename_i h; rw [List.mem_singleton.1 hw]; exact ⟨h, hc⟩
  | cons c s ih =>
    intro w hw
    unfold blankWordsFrom at hw
    split at hw
    · rcases List.mem_append.1 hw with hw | hw
      · split at hw
        · cases hw
        · rename_i h; rw [List.mem_singleton.1 hw]; exact ⟨h, hc⟩
      · exact ih [] (by simp) w hw
    · rename_i hb
      refine ih (cur ++ [c]) ?_ w hw
      intro x hx
      rcases List.mem_append.1 hx with hx | hx
      · exact hc x hx
      · rw [List.mem_singleton.1 hx]; simpa using hb

private theorem words_join (ws : List (List Char)) : blankWords (joinBlank ws) = (ws.map blankWords).flatten := by
  induction ws with
  | nil => rfl
  | cons w ws ih =>
    cases ws with
    | nil => simp [joinBlank]
    | cons v ws =>
      show blankWordsFrom [] (w ++ ' ' :: joinBlank (v :: ws)) = _
      rw [words_append, ih]
      rfl

private theorem flatten_plain (ws : List (List Char)) : (ws.map blankWords).flatten = ws ↔ ∀ w ∈ ws, PlainWord w := by
  constructor
  · intro h w hw
    rw [← h] at hw
    obtain ⟨l, hl, hwl⟩ := List.mem_flatten.1 hw
    obtain ⟨v, -, rfl⟩ := List.mem_map.1 hl
    exact words_are_plain [] v (by simp) w hwl
  · intro h
    induction ws with
    | nil => rfl
    | cons w ws ih =>
      rw [List.map_cons, List.flatten_cons, words_one w (h w (by simp)), ih (fun v hv => h v (by simp [hv]))]
      rfl

/-- **C96, the command.** In a directory without blanks in its path, the job runs `python` with the words of the user exactly if no argument is empty or has a blank in it. The
variables are set for it if they are set for the user. Other special characters of the shell are not looked at. -/
theorem c96_command (cwd skip branch : List Char) (argv : List (List Char)) (hc : PlainWord cwd) (hs : ∀ c ∈ skip, isShellBlank c = false)
    (hb : ∀ c ∈ branch, isShellBlank c = false) :
    blankWords (jobCommand cwd skip branch argv) = ["cd".toList, cwd, "&&".toList] ++ (if skip = [] then [] else ["LIGHTNING_SKIP_INSTALL=".toList ++ skip]) ++
      (if branch = [] then [] else ["LIGHTNING_BRANCH=".toList ++ branch]) ++ ["python".toList] ++ argv ↔ ∀ w ∈ argv, PlainWord w := by
  have hcmd : blankWords (jobCommand cwd skip branch argv) = ["cd".toList, cwd, "&&".toList] ++ (if skip = [] then [] else ["LIGHTNING_SKIP_INSTALL=".toList ++ skip]) ++
      (if branch = [] then [] else ["LIGHTNING_BRANCH=".toList ++ branch]) ++ ["python".toList] ++ (argv.map blankWords).flatten := by
    have hpy : blankWords ("python ".toList ++ joinBlank argv) = ["python".toList] ++ (argv.map blankWords).flatten := by
      have := words_append [] "python".toList (joinBlank argv)
      rw [words_join] at this
      exact this
    have e1 : "cd ".toList = "cd".toList ++ [' '] := rfl
    have e2 : " &&".toList = ' ' :: "&&".toList := rfl
    have e3 : " python ".toList = ' ' :: "python ".toList := rfl
    have e4 : "LIGHTNING_SKIP_INSTALL=".toList = "LIGHTNING_SKIP_INSTALL".toList ++ ['='] := rfl
    have e5 : "LIGHTNING_BRANCH=".toList = "LIGHTNING_BRANCH".toList ++ ['='] := rfl
    have hcd : ∀ x, blankWords ("cd".toList ++ ' ' :: x) = "cd".toList :: blankWords x := fun x => words_append [] "cd".toList x
    have hcwd : ∀ x, blankWords (cwd ++ ' ' :: x) = cwd :: blankWords x := fun x => by
      have := words_append [] cwd x
      rw [show blankWordsFrom [] cwd = [cwd] from words_one cwd hc] at this
      exact this
    have hand : ∀ x, blankWords ("&&".toList ++ ' ' :: x) = "&&".toList :: blankWords x := fun x => words_append [] "&&".toList x
    have hnil : ∀ x, blankWords (' ' :: x) = blankWords x := fun x => words_append [] [] x
    have hvar : ∀ (name v x : List Char), (∀ c ∈ name, isShellBlank c = false) → (∀ c ∈ v, isShellBlank c = false) →
        blankWords (name ++ '=' :: (v ++ ' ' :: x)) = (name ++ '=' :: v) :: blankWords x := by
      intro name v x hn hv
      have hp : PlainWord (name ++ '=' :: v) := by
        refine ⟨by simp, ?_⟩
        intro c hc
        rcases List.mem_append.1 hc with hc | hc
        · exact hn c hc
        · rcases List.mem_cons.1 hc with rfl | hc
          · decide
          · exact hv c hc
      have h1 := words_append [] (name ++ '=' :: v) x
      rw [show blankWordsFrom [] (name ++ '=' :: v) = [name ++ '=' :: v] from words_one _ hp] at h1
      rw [← List.cons_append, ← List.append_assoc]
      exact h1
    have hns : ∀ c ∈ "LIGHTNING_SKIP_INSTALL".toList, isShellBlank c = false := by decide
    have hnb : ∀ c ∈ "LIGHTNING_BRANCH".toList, isShellBlank c = false := by decide
    unfold jobCommand jobVariable
    rw [e1, e2, e3, e4, e5]
    generalize "LIGHTNING_SKIP_INSTALL".toList = n1 at *
    generalize "LIGHTNING_BRANCH".toList = n2 at *
    generalize "cd".toList = cd at *
    generalize "&&".toList = an at *
    generalize "python ".toList = py at *
    generalize "python".toList = py' at *
    by_cases h1 : skip = [] <;> by_cases h2 : branch = [] <;>
      simp only [h1, h2, if_true, if_false, List.append_assoc, List.cons_append, List.nil_append, List.append_nil, hcd, hcwd, hand, hnil, hpy, hvar _ _ _ hns hs, hvar _ _ _ hnb hb]
  rw [hcmd, List.append_cancel_left_eq, flatten_plain]

/-- **C96, the end of the job.** The call returns in the round in which it sees the job completed or stopped, raises in the one in which it sees that it failed, and waits as long as none of
them is seen. -/
theorem c96_wait (phase : Nat → JobPhase) (n i : Nat) :
    (waitJob phase n i = none ↔ ∀ j, i ≤ j → j < i + n → phase j = .going) ∧
    ∀ j r, waitJob phase n i = some (j, r) ↔ i ≤ j ∧ j < i + n ∧ (∀ k, i ≤ k → k < j → phase k = .going) ∧
      ((phase j = .failed ∧ r = .error .runtimeError) ∨ ((phase j = .completed ∨ phase j = .stopped) ∧ r = .ok ())) := by
  induction n generalizing i with
  | zero => 
    constructor
    · simp only [waitJob, true_iff]; intro j h1 h2; omega
    · intro j r
      simp only [waitJob, reduceCtorEq, false_iff]
      rintro ⟨h1, h2, -⟩; omega
  | succ n ih =>
    obtain ⟨ih1, ih2⟩ := ih (i + 1)
    cases hp : phase i with
    | going =>
      have hw : waitJob phase (n + 1) i = waitJob phase n (i + 1) := by simp only [waitJob, hp]
      rw [hw]
      constructor
      · rw [ih1]
        constructor
        · intro h j h1 h2
          by_cases hj : j = i
          · rw [hj]; exact hp
          · exact h j (by omega) (by omega)
        · intro h j h1 h2; exact h j (by omega) (by omega)
      · intro j r
        rw [ih2]
        constructor
        · rintro ⟨h1, h2, h3, h4⟩
          refine ⟨by omega, by omega, ?_, h4⟩
          intro k hk1 hk2
          by_cases hk : k = i
          · rw [hk]; exact hp
          · exact h3 k (by omega) hk2
        · rintro ⟨h1, h2, h3, h4⟩
          have hji : j ≠ i := by
            intro h
            rw [h, hp] at h4
            simp at h4
          exact ⟨by omega, by omega, fun k hk1 hk2 => h3 k (by omega) hk2, h4⟩
    | failed | stopped | completed =>
      constructor
      · simp only [waitJob, hp, reduceCtorEq, false_iff]
        intro h
        have := h i (Nat.le_refl _) (by omega)
        rw [hp] at this
        cases this
      · intro j r
        simp only [waitJob, hp, Option.some.injEq, Prod.mk.injEq]
        constructor
        · rintro ⟨rfl, rfl⟩
          refine ⟨Nat.le_refl _, by omega, fun k h1 h2 => by omega, by simp [hp]⟩
        · rintro ⟨h1, -, h3, h4⟩
          have hji : j = i := by
            apply Classical.byContradiction
            intro hne
            have := h3 i (Nat.le_refl _) (by omega)
            rw [hp] at this
            cases this
          subst hji
          rw [hp] at h4
          simp_all

/-- **C96, a job that is stopped** is taken for one that has completed. -/
theorem c96_stopped (phase : Nat → JobPhase) (n i : Nat) :
    waitJob (fun j => if phase j = .stopped then .completed else phase j) n i = waitJob phase n i := by
  induction n generalizing i with
  | zero => rfl
  | succ n ih =>
    unfold waitJob
    cases hp : phase i <;> simp [hp, ih]

/-- What the job of a script does: every call once more, if each may. -/
private theorem job_closed (ops : List ScriptOp) (runs : Nat → Nat) (m : Nat) (hm : m ≤ ops.length) :
    ((∀ i o, i < m → ops[i]? = some o → o.again = true ∨ runs i = 0) →
      (List.range m).foldlM (workOp ops) runs = .ok fun i => if i < m then runs i + 1 else runs i) ∧
    (¬ (∀ i o, i < m → ops[i]? = some o → o.again = true ∨ runs i = 0) → (List.range m).foldlM (workOp ops) runs = .error .runtimeError) := by
  induction m with
  | zero =>
    constructor
    · intro _; simp [pure, Except.pure]
    · intro h; exact absurd (fun i o hi => absurd hi (by omega)) h
  | succ m ih =>
    obtain ⟨ih1, ih2⟩ := ih (by omega)
    have hget : ops[m]? = some ops[m] := List.getElem?_eq_getElem (by omega)
    rw [List.range_succ, List.foldlM_append]
    constructor
    · intro h
      rw [ih1 (fun i o hi => h i o (by omega))]
      have := h m _ (by omega) hget
      simp only [bind, Except.bind, List.foldlM_cons, List.foldlM_nil, workOp, hget, Nat.lt_irrefl, if_false, pure, Except.pure]
      rw [if_neg (by rcases this with h | h <;> simp [h])]
      simp only [Except.ok.injEq]
      funext i
      by_cases hi : i = m
      · subst hi; simp
      · by_cases hlt : i < m
        · simp [hi, hlt, Nat.lt_succ_of_lt hlt]
        · simp [hi, hlt, show ¬ i < m + 1 by omega]
    · intro h
      by_cases hall : ∀ i o, i < m → ops[i]? = some o → o.again = true ∨ runs i = 0
      · rw [ih1 hall]
        have hbad : ¬ (ops[m].again = true ∨ runs m = 0) := by
          intro hg
          apply h
          intro i o hi ho
          by_cases him : i = m
          · subst him; rw [hget] at ho; cases ho; exact hg
          · exact hall i o (by omega) ho
        simp only [bind, Except.bind, List.foldlM_cons, List.foldlM_nil, workOp, hget, Nat.lt_irrefl, if_false]
        rw [if_pos (by
          constructor
          · exact Nat.pos_of_ne_zero fun h0 => hbad (.inr h0)
          · simpa using fun h0 => hbad (.inl h0))]
      · rw [ih2 hall]
        rfl

/-- **C96, the first job** of a script does the work of all its calls, also of those after the one that started it. -/
theorem c96_first_job (ops : List ScriptOp) : jobWork ops (fun _ => 0) = .ok fun i => if i < ops.length then 1 else 0 := by
  have := (job_closed ops (fun _ => 0) ops.length (Nat.le_refl _)).1 (fun _ _ _ _ => .inr rfl)
  simpa [jobWork] using this

/-- How often call `i` has done its work when the script has come to call `m`. -/
def scriptRuns (ops : List ScriptOp) (m i : Nat) : Nat :=
  if i < ops.length then ((ops.take m).filter (·.remote)).length + (if i < m ∧ (ops[i]?.any fun o => !o.remote) then 1 else 0) else 0

private theorem script_closed (ops : List ScriptOp) (m : Nat) (hm : m ≤ ops.length) :
    ((∀ i o, ops[i]? = some o → o.again = true ∨ scriptRuns ops m i ≤ 1) → (List.range m).foldlM (callOp ops) (fun _ => 0) = .ok (scriptRuns ops m)) ∧
    (¬ (∀ i o, ops[i]? = some o → o.again = true ∨ scriptRuns ops m i ≤ 1) → (List.range m).foldlM (callOp ops) (fun _ => 0) = .error .runtimeError) := by
  induction m with
  | zero =>
    have h0 : scriptRuns ops 0 = fun _ => 0 := by
      funext i; unfold scriptRuns; simp
    constructor
    · intro _; rw [h0]; rfl
    · intro h; exact absurd (fun i o _ => .inr (by rw [h0]; exact Nat.zero_le _)) h
  | succ m ih =>
    obtain ⟨ih1, ih2⟩ := ih (by omega)
    have hget : ops[m]? = some ops[m] := List.getElem?_eq_getElem (by omega)
    have htake : ops.take (m + 1) = ops.take m ++ [ops[m]] := by rw [List.take_add_one, hget]; rfl
    have hlt : ∀ i o, ops[i]? = some o → i < ops.length := fun i o h => (List.getElem?_eq_some_iff.1 h).1
    rw [List.range_succ, List.foldlM_append]
    by_cases hr : ops[m].remote = true
    · have hs : ∀ i, i < ops.length → scriptRuns ops (m + 1) i = scriptRuns ops m i + 1 := by
        intro i hi
        unfold scriptRuns
        rw [if_pos hi, if_pos hi, htake, List.filter_append, List.length_append]
        have : ([ops[m]].filter (·.remote)).length = 1 := by simp [hr]
        rw [this]
        by_cases him : i = m
        · subst him
          have hx : (ops[i]?.any fun o => !o.remote) = false := by rw [hget]; simp [hr]
          simp [hx]
        · have : i < m + 1 ↔ i < m := by omega
          simp only [this]
          omega
      have hout : ∀ i, ¬ i < ops.length → scriptRuns ops (m + 1) i = scriptRuns ops m i := by
        intro i hi; unfold scriptRuns; rw [if_neg hi, if_neg hi]
      obtain ⟨j1, j2⟩ := job_closed ops (scriptRuns ops m) ops.length (Nat.le_refl _)
      constructor
      · intro h
        rw [ih1 (fun i o ho => (h i o ho).imp_right fun h => by rw [hs i (hlt i o ho)] at h; omega)]
        have := j1 (fun i o _ ho => (h i o ho).imp_right fun h => by rw [hs i (hlt i o ho)] at h; omega)
        have hj : jobWork ops (scriptRuns ops m) = .ok (scriptRuns ops (m + 1)) := by
          rw [jobWork, this]
          congr 1
          funext i
          by_cases hi : i < ops.length
          · rw [if_pos hi, hs i hi]
          · rw [if_neg hi, hout i hi]
        simp only [bind, Except.bind, List.foldlM_cons, List.foldlM_nil, callOp, hget, hr, if_true, hj, pure, Except.pure]
      · intro h
        by_cases hall : ∀ i o, ops[i]? = some o → o.again = true ∨ scriptRuns ops m i ≤ 1
        · rw [ih1 hall]
          have hj := j2 (fun hg => h fun i o ho => (hg i o (hlt i o ho) ho).imp_right fun h0 => by rw [hs i (hlt i o ho), h0]; omega)
          have hj' : jobWork ops (scriptRuns ops m) = .error .runtimeError := hj
          simp only [bind, Except.bind, List.foldlM_cons, List.foldlM_nil, callOp, hget, hr, if_true, hj']
        · rw [ih2 hall]; rfl
    · have hr : ops[m].remote = false := by simpa using hr
      have hs : ∀ i, scriptRuns ops (m + 1) i = if i = m then scriptRuns ops m i + 1 else scriptRuns ops m i := by
        intro i
        unfold scriptRuns
        by_cases hi : i < ops.length
        · rw [if_pos hi, if_pos hi, htake, List.filter_append, List.length_append]
          have : ([ops[m]].filter (·.remote)).length = 0 := by simp [hr]
          rw [this]
          by_cases him : i = m
          · subst him
            have hx : (ops[i]?.any fun o => !o.remote) = true := by rw [hget]; simp [hr]
            simp [hx]
          · have : i < m + 1 ↔ i < m := by omega
            simp only [this, him, if_false]
            omega
        · rw [if_neg hi, if_neg hi, if_neg (by omega)]
      constructor
      · intro h
        rw [ih1 (fun i o ho => (h i o ho).imp_right fun h => by rw [hs i] at h; split at h <;> omega)]
        have hok : ¬ (0 < scriptRuns ops m m ∧ ops[m].again = false) := by
          rintro ⟨h1, h2⟩
          have := h m _ hget
          rw [hs m, if_pos rfl, h2] at this
          rcases this with h | h
          · cases h
          · omega
        simp only [bind, Except.bind, List.foldlM_cons, List.foldlM_nil, callOp, hget, hr, Bool.false_eq_true, if_false, workOp, hok, pure, Except.pure, Except.ok.injEq]
        funext i
        rw [hs i]
        by_cases him : i = m
        · subst him; simp
        · simp [him]
      · intro h
        by_cases hall : ∀ i o, ops[i]? = some o → o.again = true ∨ scriptRuns ops m i ≤ 1
        · rw [ih1 hall]
          have hbad : 0 < scriptRuns ops m m ∧ ops[m].again = false := by
            apply Classical.byContradiction
            intro hn
            apply h
            intro i o ho
            by_cases him : i = m
            · subst him
              rw [hget] at ho
              cases ho
              by_cases ha : ops[i].again = true
              · exact .inl ha
              · right
                rw [hs i, if_pos rfl]
                have : ¬ 0 < scriptRuns ops i i := fun h0 => hn ⟨h0, by simpa using ha⟩
                omega
            · rw [hs i, if_neg him]; exact hall i o ho
          simp only [bind, Except.bind, List.foldlM_cons, List.foldlM_nil, callOp, hget, hr, Bool.false_eq_true, if_false, workOp, hbad, and_self, if_true]
        · rw [ih2 hall]; rfl

/-- **C96, scripts with several calls.** With empty outputs, a script comes to its end exactly if each of its calls may be done again or is the only one, as every job does the work of all
calls: it is done once for each call with `num_nodes`, and once more if the call itself has none. -/
theorem c96_script (ops : List ScriptOp) :
    ((∃ runs, scriptRun ops (fun _ => 0) = .ok runs) ↔
      ∀ o ∈ ops, o.again = true ∨ (ops.filter (·.remote)).length + (if o.remote then 0 else 1) ≤ 1) ∧
    (∀ runs, scriptRun ops (fun _ => 0) = .ok runs → ∀ i o, ops[i]? = some o → runs i = (ops.filter (·.remote)).length + (if o.remote then 0 else 1)) ∧
    ∀ e, scriptRun ops (fun _ => 0) = .error e → e = .runtimeError := by
  obtain ⟨h1, h2⟩ := script_closed ops ops.length (Nat.le_refl _)
  have hs : ∀ i o, ops[i]? = some o → scriptRuns ops ops.length i = (ops.filter (·.remote)).length + (if o.remote then 0 else 1) := by
    intro i o ho
    have hi := (List.getElem?_eq_some_iff.1 ho).1
    unfold scriptRuns
    rw [if_pos hi, List.take_length, ho]
    cases hr : o.remote <;> simp [hi, hr]
  have hiff : (∀ i o, ops[i]? = some o → o.again = true ∨ scriptRuns ops ops.length i ≤ 1) ↔
      ∀ o ∈ ops, o.again = true ∨ (ops.filter (·.remote)).length + (if o.remote then 0 else 1) ≤ 1 := by
    constructor
    · intro h o ho
      obtain ⟨i, hi⟩ := List.getElem?_of_mem ho
      have := h i o hi
      rwa [hs i o hi] at this
    · intro h i o ho
      rw [hs i o ho]
      exact h o (List.mem_of_getElem? ho)
  rw [← hiff]
  by_cases hc : ∀ i o, ops[i]? = some o → o.again = true ∨ scriptRuns ops ops.length i ≤ 1
  · have hok : scriptRun ops (fun _ => 0) = .ok (scriptRuns ops ops.length) := h1 hc
    refine ⟨⟨fun _ => hc, fun _ => ⟨_, hok⟩⟩, ?_, ?_⟩
    · intro runs hr i o ho
      rw [hok] at hr
      cases hr
      exact hs i o ho
    · intro e he; rw [hok] at he; cases he
  · have herr : scriptRun ops (fun _ => 0) = .error .runtimeError := h2 hc
    refine ⟨⟨fun ⟨_, h⟩ => ?_, fun h => absurd h hc⟩, ?_, ?_⟩
    · rw [herr] at h; cases h
    · intro runs hr; rw [herr] at hr; cases hr
    · intro e he; rw [herr] at he; cases he; rfl

/-- One call with `num_nodes` works; two into empty outputs do not, nor does one beside a call on the own machine. -/
example : (∀ o ∈ [ScriptOp.mk true false], o.again = true ∨ ([ScriptOp.mk true false].filter (·.remote)).length + (if o.remote then 0 else 1) ≤ 1) ∧
    (∃ r, scriptRun [⟨true, false⟩] (fun _ => 0) = .ok r ∧ r 0 = 1) ∧
    scriptRun [⟨true, false⟩, ⟨true, false⟩] (fun _ => 0) = .error .runtimeError ∧ scriptRun [⟨false, false⟩, ⟨true, false⟩] (fun _ => 0) = .error .runtimeError ∧
    (∃ r, scriptRun [⟨true, true⟩, ⟨true, true⟩, ⟨false, true⟩] (fun _ => 0) = .ok r ∧ r 0 = 2 ∧ r 1 = 2 ∧ r 2 = 3) :=
  ⟨by decide, ⟨_, rfl, rfl⟩, rfl, rfl, ⟨_, rfl, rfl, rfl, rfl⟩⟩

/-- A command whose arguments arrive, and one whose argument with a blank is torn. -/
example : PlainWord "/w".toList ∧ blankWords (jobCommand "/w".toList "1".toList [] ["a.py".toList, "--n=3".toList]) =
      ["cd".toList, "/w".toList, "&&".toList, "LIGHTNING_SKIP_INSTALL=1".toList, "python".toList, "a.py".toList, "--n=3".toList] ∧
    blankWords (jobCommand "/w".toList [] [] ["a.py".toList, "my data".toList]) =
      ["cd".toList, "/w".toList, "&&".toList, "python".toList, "a.py".toList, "my".toList, "data".toList] :=
  ⟨⟨by decide, by decide⟩, by decide, by decide⟩

/-- A job that fails in the third round, and one that is stopped. -/
example : waitJob (fun i => if i = 2 then .failed else .going) 9 0 = some (2, .error .runtimeError) ∧ waitJob (fun i => if i = 2 then .stopped else .going) 9 0 = some (2, .ok ()) :=
  ⟨rfl, rfl⟩

end LitData.Props
