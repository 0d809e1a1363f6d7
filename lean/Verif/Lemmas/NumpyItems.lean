import Verif.Model.NumpyItems
import Verif.Props.Packing
import Verif.Props.Checkpoint

/-! Auxiliary facts about the conversion of inputs by numpy (for C69). -/

namespace LitData.Props
open LitData

mutual
/-- The numbers and texts of an input, from left to right. -/
def atomsOf : UserItem → List (Int ⊕ String)
  | .int i => [.inl i]
  | .str s => [.inr s]
  | .list l => atomsOfAll l
  | .tuple l => atomsOfAll l

/-- The numbers and texts of a list of inputs. -/
def atomsOfAll : List UserItem → List (Int ⊕ String)
  | [] => []
  | x :: l => atomsOf x ++ atomsOfAll l
end

/-- An input is a grid of numbers and texts: a single one, or a sequence of grids of the same extent. -/
inductive HasShape : UserItem → List Nat → Prop
  | int (i : Int) : HasShape (.int i) []
  | str (s : String) : HasShape (.str s) []
  | listNil : HasShape (.list []) [0]
  | tupleNil : HasShape (.tuple []) [0]
  | list (l : List UserItem) (s : List Nat) (hne : l ≠ []) (h : ∀ x ∈ l, HasShape x s) : HasShape (.list l) (l.length :: s)
  | tuple (l : List UserItem) (s : List Nat) (hne : l ≠ []) (h : ∀ x ∈ l, HasShape x s) : HasShape (.tuple l) (l.length :: s)

/-- A text that does not end in a zero character. -/
def NoNulEnd (s : String) : Prop := s.toList.getLast? ≠ some '\x00'

theorem shapes_eq (l : List UserItem) : shapes l = l.map UserItem.shape := by
  induction l with
  | nil => rfl
  | cons x l ih => simp only [shapes, ih, List.map_cons]

theorem viaNumpyList_map (b : Bool) (l : List UserItem) : viaNumpyList b l = l.map (UserItem.viaNumpy b) := by
  induction l with
  | nil => rfl
  | cons x l ih => simp only [viaNumpyList, ih, List.map_cons]

theorem anyText_eq (l : List UserItem) : anyText l = l.any UserItem.hasText := by
  induction l with
  | nil => rfl
  | cons x l ih => simp only [anyText, ih, List.any_cons]

theorem atomsOfAll_eq (l : List UserItem) : atomsOfAll l = l.flatMap atomsOf := by
  induction l with
  | nil => rfl
  | cons x l ih => simp only [atomsOfAll, ih, List.flatMap_cons]

theorem noTuples_iff (l : List UserItem) : NoTuples l ↔ ∀ x ∈ l, NoTuple x := by
  induction l with
  | nil => simp [NoTuples]
  | cons x l ih => simp [NoTuples, ih]

/-- The shape of a sequence of inputs is found exactly when they all have one and the same. -/
theorem seqShape_some (l : List UserItem) (s : List Nat) : seqShape (shapes l) = some s ↔
    (l = [] ∧ s = [0]) ∨ (l ≠ [] ∧ ∃ t, s = l.length :: t ∧ ∀ x ∈ l, x.shape = some t) := by
  rw [shapes_eq]
  cases l with
  | nil => simp [seqShape, eq_comm]
  | cons x l =>
    simp only [List.map_cons]
    cases hx : x.shape with
    | none => simp [seqShape, hx]
    | some t =>
      simp only [seqShape, List.length_map]
      by_cases h : (l.map UserItem.shape).all (· == some t) = true
      · rw [if_pos h]
        simp only [List.all_eq_true, List.mem_map, beq_iff_eq, forall_exists_index, and_imp, forall_apply_eq_imp_iff₂] at h
        constructor
        · intro hs
          injection hs with hs
          refine .inr ⟨by simp, t, by simp [← hs], ?_⟩
          intro y hy
          cases hy with
          | head => exact hx
          | tail _ hy => exact h y hy
        · rintro (⟨h1, _⟩ | ⟨_, t', h1, h2⟩)
          · cases h1
          · have := h2 x List.mem_cons_self
            rw [hx] at this
            injection this with this
            rw [h1, this]
            rfl
      · rw [if_neg h]
        constructor
        · intro hs; cases hs
        · rintro (⟨h1, _⟩ | ⟨_, t', h1, h2⟩)
          · cases h1
          · exfalso
            have h3 := h2 x List.mem_cons_self
            rw [hx] at h3
            injection h3 with h3
            apply h
            rw [List.all_eq_true]
            intro o ho
            obtain ⟨y, hy, rfl⟩ := List.mem_map.1 ho
            rw [h2 y (List.mem_cons_of_mem _ hy), h3]
            simp

theorem shape_of_hasShape {x : UserItem} {s : List Nat} (h : HasShape x s) : x.shape = some s := by
  induction h with
  | int i => rfl
  | str s => rfl
  | listNil => rfl
  | tupleNil => rfl
  | list l s hne h ih => exact (seqShape_some l _).2 (.inr ⟨hne, s, rfl, ih⟩)
  | tuple l s hne h ih => exact (seqShape_some l _).2 (.inr ⟨hne, s, rfl, ih⟩)

mutual
theorem hasShape_of_shape : ∀ (x : UserItem) (s : List Nat), x.shape = some s → HasShape x s
  | .int i, s, h => by
    simp only [UserItem.shape, Option.some.injEq] at h
    subst h
    exact .int i
  | .str t, s, h => by
    simp only [UserItem.shape, Option.some.injEq] at h
    subst h
    exact .str t
  | .list l, s, h => by
    have hl := hasShape_of_shapes l
    rcases (seqShape_some l s).1 h with ⟨rfl, rfl⟩ | ⟨hne, t, rfl, ht⟩
    · exact .listNil
    · exact .list l t hne fun x hx => hl x hx t (ht x hx)
  | .tuple l, s, h => by
    have hl := hasShape_of_shapes l
    rcases (seqShape_some l s).1 h with ⟨rfl, rfl⟩ | ⟨hne, t, rfl, ht⟩
    · exact .tupleNil
    · exact .tuple l t hne fun x hx => hl x hx t (ht x hx)

theorem hasShape_of_shapes : ∀ (l : List UserItem), ∀ x ∈ l, ∀ s, x.shape = some s → HasShape x s
  | [], x, hx, _, _ => by cases hx
  | y :: l, x, hx, s, hs => by
    rcases List.mem_cons.1 hx with h | h
    · rw [h] at hs ⊢
      exact hasShape_of_shape y s hs
    · exact hasShape_of_shapes l x h s hs
end

theorem shape_iff (x : UserItem) (s : List Nat) : x.shape = some s ↔ HasShape x s :=
  ⟨hasShape_of_shape x s, shape_of_hasShape⟩

theorem stripNul_eq (s : String) : stripNul s = s ↔ NoNulEnd s := by
  unfold stripNul NoNulEnd
  rw [← String.toList_inj, String.toList_ofList]
  generalize s.toList = l
  rcases List.eq_nil_or_concat l with rfl | ⟨init, a, rfl⟩
  · simp
  · simp only [List.concat_eq_append, List.reverse_append, List.reverse_cons, List.reverse_nil, List.nil_append, List.cons_append,
      List.dropWhile_cons]
    have hlast : (init ++ [a]).getLast? = some a := by simp
    rw [hlast]
    by_cases h : a = '\x00'
    · subst h
      simp only [beq_self_eq_true, if_true]
      constructor
      · intro h
        exfalso
        have h1 : (init.reverse.dropWhile (· == '\x00')).length ≤ init.reverse.length := (List.dropWhile_suffix _).length_le
        have := congrArg List.length h
        simp only [List.length_reverse, List.length_append, List.length_cons, List.length_nil] at this h1
        omega
      · intro h; exact absurd rfl h
    · have : (a == '\x00') = false := by simpa using h
      simp [this, h]

theorem stripNul_idem (s : String) : stripNul (stripNul s) = stripNul s := by
  unfold stripNul
  congr 1
  rw [String.toList_ofList, List.reverse_reverse]
  congr 1
  generalize s.toList.reverse = l
  induction l with
  | nil => rfl
  | cons a l ih =>
    rw [List.dropWhile_cons]
    split
    · exact ih
    · rename_i h
      rw [List.dropWhile_cons, if_neg h]

theorem digits_noNul (n : Nat) : (Nat.toDigits 10 n).getLast? ≠ some '\x00' := by
  intro h
  have := Nat.isDigit_of_mem_toDigits (by decide) (by decide) (List.mem_of_getLast? h)
  exact absurd this (by decide)

theorem intText_noNul (i : Int) : NoNulEnd (toString i) := by
  unfold NoNulEnd
  show (Int.repr i).toList.getLast? ≠ _
  cases i with
  | ofNat n =>
    show (Nat.repr n).toList.getLast? ≠ _
    rw [Nat.repr, String.toList_ofList]
    exact digits_noNul n
  | negSucc n =>
    show ("-" ++ Nat.repr (n + 1)).toList.getLast? ≠ _
    rw [String.toList_append, List.getLast?_append, Nat.repr, String.toList_ofList]
    have h := digits_noNul (n + 1)
    have hne := Nat.toDigits_ne_nil (n := n + 1) (b := 10)
    generalize Nat.toDigits 10 (n + 1) = d at *
    obtain ⟨init, a, rfl⟩ := (List.eq_nil_or_concat d).resolve_left hne
    simpa using h

mutual
theorem viaNumpy_eq (b : Bool) : ∀ x : UserItem, x.viaNumpy b = x ↔
    NoTuple x ∧ ∀ a ∈ atomsOf x, (∃ i, a = .inl i ∧ b = false) ∨ ∃ s, a = .inr s ∧ NoNulEnd s
  | .int i => by cases b <;> simp [UserItem.viaNumpy, NoTuple, atomsOf]
  | .str s => by simp [UserItem.viaNumpy, NoTuple, atomsOf, stripNul_eq]
  | .list l => by
    have := viaNumpyList_eq b l
    simp only [UserItem.viaNumpy, NoTuple, atomsOf, UserItem.list.injEq, this]
  | .tuple l => by simp [UserItem.viaNumpy, NoTuple]

theorem viaNumpyList_eq (b : Bool) : ∀ l : List UserItem, viaNumpyList b l = l ↔
    NoTuples l ∧ ∀ a ∈ atomsOfAll l, (∃ i, a = .inl i ∧ b = false) ∨ ∃ s, a = .inr s ∧ NoNulEnd s
  | [] => by simp [viaNumpyList, NoTuples, atomsOfAll]
  | x :: l => by
    have h1 := viaNumpy_eq b x
    have h2 := viaNumpyList_eq b l
    simp only [viaNumpyList, NoTuples, atomsOfAll, List.cons.injEq, h1, h2, List.mem_append]
    constructor
    · rintro ⟨⟨a, b⟩, c, d⟩
      exact ⟨⟨a, c⟩, fun x hx => hx.elim (b x) (d x)⟩
    · rintro ⟨⟨a, b⟩, c⟩
      exact ⟨⟨a, fun x hx => c x (.inl hx)⟩, b, fun x hx => c x (.inr hx)⟩
end

mutual
theorem hasText_iff : ∀ x : UserItem, x.hasText = true ↔ ∃ s, Sum.inr s ∈ atomsOf x
  | .int i => by simp [UserItem.hasText, atomsOf]
  | .str s => by simp [UserItem.hasText, atomsOf]
  | .list l => by simpa [UserItem.hasText, atomsOf] using anyText_iff l
  | .tuple l => by simpa [UserItem.hasText, atomsOf] using anyText_iff l

theorem anyText_iff : ∀ l : List UserItem, anyText l = true ↔ ∃ s, Sum.inr s ∈ atomsOfAll l
  | [] => by simp [anyText, atomsOfAll]
  | x :: l => by
    have h1 := hasText_iff x
    have h2 := anyText_iff l
    simp only [anyText, Bool.or_eq_true, h1, h2, atomsOfAll, List.mem_append]
    constructor
    · rintro (⟨s, h⟩ | ⟨s, h⟩)
      · exact ⟨s, .inl h⟩
      · exact ⟨s, .inr h⟩
    · rintro ⟨s, h | h⟩
      · exact .inl ⟨s, h⟩
      · exact .inr ⟨s, h⟩
end

mutual
theorem viaNumpy_noTuple (b : Bool) : ∀ x : UserItem, NoTuple (x.viaNumpy b)
  | .int i => by cases b <;> simp [UserItem.viaNumpy, NoTuple]
  | .str s => by simp [UserItem.viaNumpy, NoTuple]
  | .list l => by simpa [UserItem.viaNumpy, NoTuple] using viaNumpyList_noTuples b l
  | .tuple l => by simpa [UserItem.viaNumpy, NoTuple] using viaNumpyList_noTuples b l

theorem viaNumpyList_noTuples (b : Bool) : ∀ l : List UserItem, NoTuples (viaNumpyList b l)
  | [] => by simp [viaNumpyList, NoTuples]
  | x :: l => by
    have h1 := viaNumpy_noTuple b x
    have h2 := viaNumpyList_noTuples b l
    simp only [viaNumpyList, NoTuples, h1, h2, and_self]
end

mutual
theorem viaNumpy_twice (b : Bool) : ∀ x : UserItem, (x.viaNumpy b).viaNumpy true = x.viaNumpy true
  | .int i => by
    cases b
    · rfl
    · show UserItem.str (stripNul (toString i)) = .str (toString i)
      rw [(stripNul_eq _).2 (intText_noNul i)]
  | .str s => by simp [UserItem.viaNumpy, stripNul_idem]
  | .list l => by simpa [UserItem.viaNumpy] using viaNumpyList_twice b l
  | .tuple l => by simpa [UserItem.viaNumpy] using viaNumpyList_twice b l

theorem viaNumpyList_twice (b : Bool) : ∀ l : List UserItem, viaNumpyList true (viaNumpyList b l) = viaNumpyList true l
  | [] => by simp [viaNumpyList]
  | x :: l => by
    have h1 := viaNumpy_twice b x
    have h2 := viaNumpyList_twice b l
    simp only [viaNumpyList, h1, h2]
end

mutual
theorem shape_viaNumpy (b : Bool) : ∀ x : UserItem, (x.viaNumpy b).shape = x.shape
  | .int i => by cases b <;> rfl
  | .str s => rfl
  | .list l => by
    have := shapes_viaNumpy b l
    simp only [UserItem.viaNumpy, UserItem.shape, this]
  | .tuple l => by
    have := shapes_viaNumpy b l
    simp only [UserItem.viaNumpy, UserItem.shape, this]

theorem shapes_viaNumpy (b : Bool) : ∀ l : List UserItem, shapes (viaNumpyList b l) = shapes l
  | [] => rfl
  | x :: l => by
    have h1 := shape_viaNumpy b x
    have h2 := shapes_viaNumpy b l
    simp only [viaNumpyList, shapes, h1, h2]
end

/-- A number or text as a text. -/
def spelled : Int ⊕ String → String
  | .inl i => toString i
  | .inr s => s

mutual
theorem atoms_viaNumpy (b : Bool) : ∀ x : UserItem, (∀ s, Sum.inr s ∈ atomsOf x → NoNulEnd s) → (atomsOf (x.viaNumpy b)).map spelled = (atomsOf x).map spelled
  | .int i, _ => by cases b <;> rfl
  | .str s, h => by
    have := (stripNul_eq s).2 (h s (by simp [atomsOf]))
    simp [UserItem.viaNumpy, atomsOf, this]
  | .list l, h => by
    have := atomsAll_viaNumpy b l (by simpa [atomsOf] using h)
    simpa only [UserItem.viaNumpy, atomsOf] using this
  | .tuple l, h => by
    have := atomsAll_viaNumpy b l (by simpa [atomsOf] using h)
    simpa only [UserItem.viaNumpy, atomsOf] using this

theorem atomsAll_viaNumpy (b : Bool) : ∀ l : List UserItem, (∀ s, Sum.inr s ∈ atomsOfAll l → NoNulEnd s) →
    (atomsOfAll (viaNumpyList b l)).map spelled = (atomsOfAll l).map spelled
  | [], _ => rfl
  | x :: l, h => by
    have h1 := atoms_viaNumpy b x fun s hs => h s (by simp [atomsOfAll, hs])
    have h2 := atomsAll_viaNumpy b l fun s hs => h s (by simp [atomsOfAll, hs])
    simp only [viaNumpyList, atomsOfAll, List.map_append, h1, h2]
end

/-- The conversion of a list of inputs that have a common shape. -/
def npConv (l : List UserItem) : List UserItem := viaNumpyList (anyText l) l

theorem npItems_ok (l k : List UserItem) : npItems l = .ok k ↔ (∃ s, ∀ x ∈ l, HasShape x s) ∧ k = npConv l := by
  unfold npItems npConv
  cases hs : seqShape (shapes l) with
  | some s =>
    simp only [Except.ok.injEq]
    constructor
    · intro h
      refine ⟨?_, h.symm⟩
      rcases (seqShape_some l s).1 hs with ⟨rfl, _⟩ | ⟨_, t, _, ht⟩
      · exact ⟨[], by simp⟩
      · exact ⟨t, fun x hx => (shape_iff x t).1 (ht x hx)⟩
    · intro h; exact h.2.symm
  | none =>
    simp only [reduceCtorEq, false_iff, not_and]
    rintro ⟨t, ht⟩
    exfalso
    cases l with
    | nil => simp [shapes, seqShape] at hs
    | cons x l =>
      have := (seqShape_some (x :: l) ((x :: l).length :: t)).2 (.inr ⟨by simp, t, rfl, fun y hy => (shape_iff y t).2 (ht y hy)⟩)
      rw [hs] at this
      cases this

theorem npItems_error (l : List UserItem) : npItems l = .error .valueError ↔ ¬ ∃ s, ∀ x ∈ l, HasShape x s := by
  have h := npItems_ok l (npConv l)
  unfold npItems at h ⊢
  cases hs : seqShape (shapes l) with
  | some s =>
    simp only [hs, npConv, and_true, true_iff] at h
    simp [h]
  | none =>
    simp only [hs, reduceCtorEq, and_true, false_iff] at h
    simpa using h

theorem npWorkers_ok (draw : Nat → List UserItem → List UserItem) (bins : List (List UserItem × Int)) (ws : List Nat) (o : List (List UserItem)) :
    npWorkers draw bins ws = .ok o ↔
      (∀ w ∈ ws, ∃ s, ∀ x ∈ (bins.getD w ([], 0)).1, HasShape x s) ∧ o = ws.map fun w => draw w (npConv (bins.getD w ([], 0)).1) := by
  induction ws generalizing o with
  | nil => simp [npWorkers, eq_comm]
  | cons w ws ih =>
    unfold npWorkers
    cases hi : npItems (bins.getD w ([], 0)).1 with
    | error e =>
      simp only [reduceCtorEq, false_iff, not_and]
      intro h
      exfalso
      have := (npItems_ok _ _).2 ⟨h w List.mem_cons_self, rfl⟩
      rw [hi] at this
      cases this
    | ok l =>
      obtain ⟨h1, rfl⟩ := (npItems_ok _ _).1 hi
      simp only
      cases hr : npWorkers draw bins ws with
      | error e =>
        simp only [Except.map, reduceCtorEq, false_iff, not_and]
        intro h
        exfalso
        have := (ih _).2 ⟨fun w' hw' => h w' (List.mem_cons_of_mem _ hw'), rfl⟩
        rw [hr] at this
        cases this
      | ok o' =>
        obtain ⟨h2, rfl⟩ := (ih _).1 hr
        simp only [Except.map, Except.ok.injEq, List.map_cons]
        constructor
        · intro h
          refine ⟨?_, h.symm⟩
          intro w' hw'
          rcases List.mem_cons.1 hw' with h3 | h3
          · rw [h3]; exact h1
          · exact h2 w' h3
        · intro h; exact h.2.symm

/-- A node that succeeds gives its workers the converted inputs of their bins. -/
theorem mapWeightedNp_ok (numNodes r numWorkers : Nat) (draw : Nat → List UserItem → List UserItem) (items : List UserItem) (ws : Option (List Int))
    (o : List (List UserItem)) (h : mapWeightedNp numNodes r numWorkers draw items ws = .ok o) :
    ∃ o0, mapWeighted numNodes r numWorkers (fun _ l => l) items ws = .ok o0 ∧ o0.length = o.length ∧
      (∀ l ∈ o0, ∃ s, ∀ x ∈ l, HasShape x s) ∧
      ∀ (i : Nat) (l : List UserItem), o0[i]? = some l → o[i]? = some (draw (r * numWorkers + i) (npConv l)) := by
  unfold mapWeightedNp at h
  unfold mapWeighted
  cases hp : packGreedily items (ws.getD (List.replicate items.length 1)) (numNodes * numWorkers) with
  | error e => rw [hp] at h; cases h
  | ok bins =>
    rw [hp] at h
    simp only [bind, Except.bind] at h ⊢
    obtain ⟨h1, h2⟩ := (npWorkers_ok _ _ _ _).1 h
    refine ⟨_, rfl, by simp [h2], ?_, ?_⟩
    · intro l hl
      obtain ⟨w, hw, rfl⟩ := List.mem_map.1 hl
      exact h1 w hw
    · intro i l hl
      rw [List.getElem?_map] at hl
      rw [h2, List.getElem?_map]
      cases hi : (List.range' (r * numWorkers) numWorkers)[i]? with
      | none => rw [hi] at hl; cases hl
      | some w =>
        rw [hi] at hl
        simp only [Option.map_some, Option.some.injEq] at hl ⊢
        have hlt : i < numWorkers := by
          have := (List.getElem?_eq_some_iff.1 hi).1
          simpa using this
        rw [List.getElem?_eq_getElem (by simpa using hlt)] at hi
        simp only [List.getElem_range', Option.some.injEq] at hi
        rw [hl]
        congr 1
        omega

/-- A node succeeds when the inputs in each of its bins have a common shape. -/
theorem mapWeightedNp_some (numNodes r numWorkers : Nat) (draw : Nat → List UserItem → List UserItem) (items : List UserItem) (ws : Option (List Int))
    (o0 : List (List UserItem)) (h : mapWeighted numNodes r numWorkers (fun _ l => l) items ws = .ok o0) :
    ((∀ l ∈ o0, ∃ s, ∀ x ∈ l, HasShape x s) → ∃ o, mapWeightedNp numNodes r numWorkers draw items ws = .ok o) ∧
    ((∃ l ∈ o0, ¬ ∃ s, ∀ x ∈ l, HasShape x s) → mapWeightedNp numNodes r numWorkers draw items ws = .error .valueError) := by
  unfold mapWeighted at h
  unfold mapWeightedNp
  cases hp : packGreedily items (ws.getD (List.replicate items.length 1)) (numNodes * numWorkers) with
  | error e => rw [hp] at h; cases h
  | ok bins =>
    rw [hp] at h
    simp only [bind, Except.bind, Except.ok.injEq] at h ⊢
    subst h
    refine ⟨fun h => ⟨_, (npWorkers_ok _ _ _ _).2 ⟨fun w hw => h _ (List.mem_map.2 ⟨w, hw, rfl⟩), rfl⟩⟩, ?_⟩
    rintro ⟨l, hl, hn⟩
    obtain ⟨w, hw, rfl⟩ := List.mem_map.1 hl
    generalize List.range' (r * numWorkers) numWorkers = rs at hw
    clear hl
    induction rs with
    | nil => cases hw
    | cons v rs ih =>
      unfold npWorkers
      by_cases hv : ∃ s, ∀ x ∈ (bins.getD v ([], 0)).1, HasShape x s
      · rw [(npItems_ok _ _).2 ⟨hv, rfl⟩]
        have : w ∈ rs := by
          rcases List.mem_cons.1 hw with h | h
          · rw [h] at hn; exact absurd hv hn
          · exact h
        simp only [ih this]
        rfl
      · rw [(npItems_error _).2 hv]

theorem perm_flatten_map {β γ : Type} (f : β → γ) : ∀ (o o0 : List (List β)), o.length = o0.length →
    (∀ (i : Nat) (a b : List β), o[i]? = some a → o0[i]? = some b → (a.map f).Perm (b.map f)) → (o.flatten.map f).Perm (o0.flatten.map f)
  | [], [], _, _ => List.Perm.refl _
  | a :: o, b :: o0, hl, h => by
    simp only [List.flatten_cons, List.map_append]
    exact (h 0 a b rfl rfl).append (perm_flatten_map f o o0 (by simpa using hl) fun i x y hx hy => h (i + 1) x y (by simpa using hx) (by simpa using hy))
  | [], _ :: _, hl, _ => by simp at hl
  | _ :: _, [], hl, _ => by simp at hl

theorem flatten_eq_of_parts {β : Type} (o o0 : List (List β)) (hl : o.length = o0.length)
    (h : ∀ (i : Nat) (a b : List β), o[i]? = some a → o0[i]? = some b → a.Perm b) : o.flatten.Perm o0.flatten := by
  have := perm_flatten_map (fun x : β => x) o o0 hl (by simpa using h)
  simpa using this

/-- The sizes of inputs with a file each and no empty file are positive. -/
theorem itemBytes_pos {α : Type} (leaves : α → List (Option Nat)) (x : α) (h1 : ∃ n, some n ∈ leaves x) (h0 : some 0 ∉ leaves x) :
    ∃ v, itemBytes leaves x = .ok v ∧ 0 < v := by
  unfold itemBytes
  generalize leaves x = ls at *
  have key : ∀ (ls : List (Option Nat)) (acc : Int), 0 ≤ acc → some 0 ∉ ls →
      ∃ v, ls.foldlM (m := Except Err) (fun acc l => match l with
        | none => .ok acc
        | some 0 => .error .runtimeError
        | some n => .ok (acc + (n : Int))) acc = .ok v ∧ acc ≤ v ∧ ((∃ n, some n ∈ ls) → 0 < v) := by
    intro ls
    induction ls with
    | nil => intro acc _ _; exact ⟨acc, rfl, Int.le_refl _, by simp⟩
    | cons l ls ih =>
      intro acc hacc h
      have h' : some 0 ∉ ls := fun hh => h (List.mem_cons_of_mem _ hh)
      cases l with
      | none =>
        obtain ⟨v, hv, hle, hp⟩ := ih acc hacc h'
        refine ⟨v, hv, hle, ?_⟩
        rintro ⟨n, hn⟩
        exact hp ⟨n, by simpa using hn⟩
      | some n =>
        cases n with
        | zero => exact absurd List.mem_cons_self h
        | succ n =>
          obtain ⟨v, hv, hle, hp⟩ := ih (acc + ((n + 1 : Nat) : Int)) (by omega) h'
          exact ⟨v, hv, by omega, fun _ => by omega⟩
  obtain ⟨v, hv, _, hp⟩ := key ls 0 (Int.le_refl _) h0
  exact ⟨v, hv, hp h1⟩

theorem itemSizes_pos {α : Type} (leaves : α → List (Option Nat)) (items : List α) (h : ∀ x ∈ items, (∃ n, some n ∈ leaves x) ∧ some 0 ∉ leaves x) :
    ∃ ws : List Int, items.mapM (itemBytes leaves) = .ok ws ∧ ws.length = items.length ∧ ∀ w ∈ ws, 0 < w := by
  induction items with
  | nil => exact ⟨[], rfl, rfl, by simp⟩
  | cons x l ih =>
    obtain ⟨ws, h1, h2, h3⟩ := ih fun y hy => h y (List.mem_cons_of_mem _ hy)
    obtain ⟨v, hv, hp⟩ := itemBytes_pos leaves x (h x List.mem_cons_self).1 (h x List.mem_cons_self).2
    refine ⟨v :: ws, ?_, by simp [h2], ?_⟩
    · rw [List.mapM_cons, hv, h1]
      rfl
    · intro w hw
      rcases List.mem_cons.1 hw with h | h
      · rw [h]; exact hp
      · exact h3 w h

end LitData.Props
