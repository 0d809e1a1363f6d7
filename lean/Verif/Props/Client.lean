import Verif.Model.Client

/-! C73: requests to S3 are made with fresh credentials. -/

namespace LitData.Props

open LitData

/-- A clock that nobody sets. -/
def Accurate (wall : Nat → Int) : Prop := ∀ s t, s ≤ t → wall t - wall s = (t : Int) - s

/-- Accesses one after the other: each begins when the one before has ended. -/
def InTurn : Nat → List ClientAccess → Prop
  | _, [] => True
  | t, a :: l => t ≤ a.start ∧ InTurn a.remade l

/-- What is known of a client after an access that ended before moment `t`. -/
structure ClientInv (slow : Nat) (wall : Nat → Int) (t : Nat) (s : S3ClientSt) : Prop where
  known : (s.client = none ∧ s.last = none) ∨ ∃ c m, s.client = some c ∧ s.last = some (wall m) ∧ c ≤ m ∧ m ≤ c + slow ∧ m ≤ t

/-- Making a client takes no longer than `slow`. -/
def NotSlow (slow : Nat) (a : ClientAccess) : Prop := a.made ≤ a.start + slow ∧ a.remade ≤ a.check + slow

theorem access_inv {interval slow : Nat} {wall : Nat → Int} (hw : Accurate wall) {t : Nat} {s : S3ClientSt} (h : ClientInv slow wall t s) (a : ClientAccess) (ha : t ≤ a.start) (hs : NotSlow slow a) :
    ClientInv slow wall a.remade (s.access interval wall a) ∧
    ∃ c, (s.access interval wall a).client = some c ∧ c ≤ a.remade ∧ a.check ≤ c + slow + interval ∧ a.remade ≤ c + 2 * slow + interval := by
  obtain ⟨h1, h2⟩ := hs
  have m1 := a.made_after
  have m2 := a.check_after
  have m3 := a.remade_after
  -- the condition, after the first part
  have key : ∀ s : S3ClientSt, (∃ c m, s.client = some c ∧ s.last = some (wall m) ∧ c ≤ m ∧ m ≤ c + slow ∧ m ≤ a.made) → ∀ s' : S3ClientSt,
      s' = (match s.last with
        | none => ⟨some a.check, some (wall a.remade)⟩
        | some l => if wall a.check - l > interval then ⟨some a.check, some (wall a.remade)⟩ else s) →
      ClientInv slow wall a.remade s' ∧ ∃ c, s'.client = some c ∧ c ≤ a.remade ∧ a.check ≤ c + slow + interval ∧ a.remade ≤ c + 2 * slow + interval := by
    rintro s ⟨c, m, e1, e2, e3, e4, e5⟩ s' rfl
    rw [e2]
    have hacc := hw m a.check (by omega)
    dsimp only
    split
    · exact ⟨⟨.inr ⟨a.check, a.remade, rfl, rfl, by omega, by omega, by omega⟩⟩, a.check, rfl, by omega, by omega, by omega⟩
    · exact ⟨⟨.inr ⟨c, m, e1, e2, e3, e4, by omega⟩⟩, c, e1, by omega, by omega, by omega⟩
  unfold S3ClientSt.access
  rcases h.known with ⟨e1, _⟩ | ⟨c, m, e1, e2, e3, e4, e5⟩
  · rw [e1]
    exact key ⟨some a.start, some (wall a.made)⟩ ⟨a.start, a.made, rfl, rfl, by omega, by omega, by omega⟩ _ rfl
  · rw [e1]
    exact key s ⟨c, m, e1, e2, e3, e4, by omega⟩ _ rfl

theorem accesses_inv {interval slow : Nat} {wall : Nat → Int} (hw : Accurate wall) (l : List ClientAccess) {t : Nat} {s : S3ClientSt} (h : ClientInv slow wall t s) (hl : InTurn t l) (hs : ∀ a ∈ l, NotSlow slow a) :
    ClientInv slow wall ((l.getLast?.map ClientAccess.remade).getD t) (s.accesses interval wall l) := by
  induction l generalizing t s with
  | nil => exact h
  | cons a l ih =>
    have h1 := (access_inv (interval := interval) hw h a hl.1 (hs a (List.mem_cons_self ..))).1
    have h2 := ih h1 hl.2 fun b hb => hs b (List.mem_cons_of_mem _ hb)
    rw [S3ClientSt.accesses, List.foldl_cons]
    have e : ((a :: l).getLast?.map ClientAccess.remade).getD t = (l.getLast?.map ClientAccess.remade).getD a.remade := by
      cases l with
      | nil => rfl
      | cons b l => simp [List.getLast?_cons]
    rw [e]
    exact h2

theorem inTurn_append {t : Nat} {l : List ClientAccess} {a : ClientAccess} (h : InTurn t (l ++ [a])) : InTurn t l ∧ (l.getLast?.map ClientAccess.remade).getD t ≤ a.start := by
  induction l generalizing t with
  | nil => exact ⟨trivial, h.1⟩
  | cons b l ih =>
    obtain ⟨h1, h2⟩ := ih h.2
    refine ⟨⟨h.1, h1⟩, ?_⟩
    cases l with
    | nil => exact h2
    | cons c l => simpa [List.getLast?_cons] using h2

/-- **C73.** If the clock is not set, and making a client takes no longer than `slow`, then every access, after any accesses before it, gives a client whose making began no longer ago than the interval and `slow`
when the clock was read, and twice `slow` at the end. -/
theorem c73_fresh_partial (interval slow : Nat) (wall : Nat → Int) (hw : Accurate wall) (l : List ClientAccess) (a : ClientAccess) (hl : InTurn 0 (l ++ [a])) (hs : ∀ b ∈ l ++ [a], NotSlow slow b) :
    ∃ c, (S3ClientSt.new.accesses interval wall (l ++ [a])).client = some c ∧ c ≤ a.remade ∧ a.check ≤ c + slow + interval ∧ a.remade ≤ c + 2 * slow + interval := by
  obtain ⟨h1, h2⟩ := inTurn_append hl
  have hi := accesses_inv (interval := interval) (slow := slow) hw l (s := S3ClientSt.new) ⟨.inl ⟨rfl, rfl⟩⟩ h1 fun b hb => hs b (List.mem_append_left _ hb)
  have := (access_inv (interval := interval) hw hi a h2 (hs a (List.mem_append_right _ (List.mem_singleton.2 rfl)))).2
  rw [S3ClientSt.accesses, List.foldl_append]
  exact this

/-- A client is not made anew before the interval is over: an access within the interval after the client was made gives the same client. -/
theorem c73_kept (interval : Nat) (wall : Nat → Int) (hw : Accurate wall) (c m : Nat) (a : ClientAccess) (h : m ≤ a.check) (hi : a.check ≤ m + interval) :
    S3ClientSt.access interval wall ⟨some c, some (wall m)⟩ a = ⟨some c, some (wall m)⟩ := by
  have := hw m a.check h
  unfold S3ClientSt.access
  dsimp only
  rw [if_neg (by omega)]

/-- After the interval it is made anew. -/
theorem c73_renewed (interval : Nat) (wall : Nat → Int) (hw : Accurate wall) (c m : Nat) (a : ClientAccess) (hi : m + interval < a.check) :
    S3ClientSt.access interval wall ⟨some c, some (wall m)⟩ a = ⟨some a.check, some (wall a.remade)⟩ := by
  have := hw m a.check (by omega)
  unfold S3ClientSt.access
  dsimp only
  rw [if_pos (by omega)]

/-- **Where the code fails.** The age of the credentials is counted from the end of the making of the client: if that took long, older credentials are used, by as much as one likes. -/
theorem c73_slow (interval age : Nat) : ∃ a b : ClientAccess, InTurn 0 [a, b] ∧ (S3ClientSt.new.accesses interval (fun t => t) [a, b]).client = some a.start ∧ a.start + age ≤ b.check := by
  refine ⟨⟨0, age, age, age, by omega, by omega, by omega⟩, ⟨age, age, age, age, by omega, by omega, by omega⟩, ⟨by simp, by simp, trivial⟩, ?_, by simp⟩
  have h : ¬ ((interval : Int) < 0) := by omega
  simp [S3ClientSt.accesses, S3ClientSt.access, S3ClientSt.new, h]

/-- If the clock is set back after a client was made, the client is kept for longer, by as much as one likes. -/
theorem c73_clock_set_back (interval age : Nat) : ∃ (wall : Nat → Int) (a b : ClientAccess), InTurn 0 [a, b] ∧ NotSlow 0 a ∧ NotSlow 0 b ∧
    (S3ClientSt.new.accesses interval wall [a, b]).client = some a.start ∧ a.start + age ≤ b.check := by
  refine ⟨fun t => if t = 0 then (age : Int) else t, ⟨0, 0, 0, 0, by omega, by omega, by omega⟩, ⟨age, age, age, age, by omega, by omega, by omega⟩, ⟨by simp, by simp, trivial⟩,
    ⟨by simp, by simp⟩, ⟨by simp, by simp⟩, ?_, by simp⟩
  have h : ¬ ((interval : Int) < 0) := by omega
  by_cases h0 : age = 0 <;> simp [S3ClientSt.accesses, S3ClientSt.access, S3ClientSt.new, h, h0]

/-- The moments of an access that takes no time. -/
def accessAt (t : Nat) : ClientAccess := ⟨t, t, t, t, Nat.le_refl _, Nat.le_refl _, Nat.le_refl _⟩

example : Accurate fun t => (t : Int) + 1700000000 := by
  intro s t _
  show ((t : Int) + 1700000000) - ((s : Int) + 1700000000) = (t : Int) - s
  omega

example : InTurn 0 [accessAt 10, accessAt 3000, accessAt 3311] ∧ (S3ClientSt.new.accesses 3300 (fun t => t) [accessAt 10, accessAt 3000]).client = some 10 ∧
    (S3ClientSt.new.accesses 3300 (fun t => t) [accessAt 10, accessAt 3000, accessAt 3311]).client = some 3311 := by
  refine ⟨⟨by decide, by decide, by decide, trivial⟩, by decide, by decide⟩

end LitData.Props
