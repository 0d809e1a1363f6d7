import Verif.Model.Rewrite
import Verif.Props.Sample
import Verif.Props.Merge

/-! Property C84: samples that were read can be written again. -/

namespace LitData.Props
open LitData

/-- A leaf as it is read: integers and floats are NumPy scalars. -/
def asRead : LeafTree → PyVal
  | .leaf (.int i) => .npInt i
  | .leaf (.float w) => .npFloat w
  | t => .own t

/-- Reading gives back what was pickled. -/
def Unpickles (env : SerEnv) (unpickle : Bytes → Py PyVal) : Prop :=
  ∀ t, env.unpickle (env.pickle t) = .ok t → unpickle (env.pickle t) = .ok (.own t)

/-- The serializer, name and data format used for a kind of leaves, with NumPy scalars told apart. -/
def npCol (env : SerEnv) (pickle : PyVal → Bytes) (unpickle : Bytes → Py PyVal) : Kind → Col PyVal
  | .int => ⟨"int", npIntSer, "int"⟩
  | .float => ⟨"float", npFloatSer, "float"⟩
  | .pickled => ⟨"pickle", npPickleSer env pickle unpickle, "pickle"⟩
  | k => ⟨(kindCol env k).key, ownSer (kindCol env k).ser, (kindCol env k).fmt⟩

theorem npCol_names (env : SerEnv) (pickle : PyVal → Bytes) (unpickle : Bytes → Py PyVal) (k : Kind) :
    (npCol env pickle unpickle k).key = (kindCol env k).key ∧ (npCol env pickle unpickle k).fmt = (kindCol env k).fmt := by
  cases k <;> exact ⟨rfl, rfl⟩

theorem npBuiltins_names (env : SerEnv) (pickle : PyVal → Bytes) (unpickle : Bytes → Py PyVal) :
    (npBuiltins env pickle unpickle).map (·.1) = (builtins env).map (·.1) := rfl

theorem lookup_none_of_names {β γ : Type} (key : String) : ∀ (l : List (String × β)) (m : List (String × γ)), l.map (·.1) = m.map (·.1) →
    l.lookup key = none → m.lookup key = none
  | [], [], _, _ => rfl
  | (a, x) :: l, (b, y) :: m, h, hn => by
    simp only [List.map_cons, List.cons.injEq] at h
    obtain ⟨h1, h2⟩ := h
    subst h1
    rw [List.lookup_cons] at hn ⊢
    split at hn
    · cases hn
    · exact lookup_none_of_names key l m h2 hn

theorem npCol_ok (env : SerEnv) (pickle : PyVal → Bytes) (unpickle : Bytes → Py PyVal) (k : Kind) :
    ColOk (npBuiltins env pickle unpickle) (npCol env pickle unpickle k) := by
  obtain ⟨h1, h2, h3⟩ := kindCol_ok env k
  obtain ⟨n1, n2⟩ := npCol_names env pickle unpickle k
  refine ⟨?_, ?_, ?_⟩
  · cases k <;> rfl
  · rw [n1]; exact h2
  · rw [n1, n2]
    rcases h3 with h3 | ⟨suf, h3, h4, h5⟩
    · exact Or.inl h3
    · exact Or.inr ⟨suf, h3, h4, lookup_none_of_names _ _ _ (npBuiltins_names env pickle unpickle).symm h5⟩

/-- The user's leaf is taken by the serializer of its kind, as in the model without NumPy scalars. -/
theorem npPicks_own (env : SerEnv) (pickle : PyVal → Bytes) (unpickle : Bytes → Py PyVal) (x : LeafTree) (k : Kind) (hk : leafKind env x = some k) :
    (npBuiltins env pickle unpickle).find? (fun e => e.2.canSerialize (.own x)) = some ((npCol env pickle unpickle k).key, (npCol env pickle unpickle k).ser) := by
  match x with
  | .leaf (.str s) =>
    simp only [leafKind] at hk
    split at hk
    · rename_i h
      injection hk with hk; subst hk
      simp [npBuiltins, ownSer, strSer, h, npCol, kindCol]
    · rename_i h
      split at hk
      · simp at hk
      · rename_i h'
        injection hk with hk; subst hk
        simp only [Bool.or_eq_true, not_or, Bool.not_eq_true] at h'
        have h : (env.files s).isNone = false := Bool.eq_false_iff.mpr h
        simp [npBuiltins, ownSer, npIntSer, npFloatSer, npPickleSer, npCol, strSer, h, boolSer, intSer, floatSer, videoSer, tiffSer, h'.1, h'.2,
          fileSer, pilSer, jpegSer, jpegArraySer, bytesSer, noHeaderNumpySer, numpySer, noHeaderTensorSer, tensorSer]
  | .leaf (.bool b) => injection hk with hk; subst hk; rfl
  | .leaf (.int b) => injection hk with hk; subst hk; rfl
  | .leaf (.float b) => injection hk with hk; subst hk; rfl
  | .leaf (.bytes b) => injection hk with hk; subst hk; rfl
  | .leaf (.pil ..) => injection hk with hk; subst hk; rfl
  | .leaf (.jpeg _) => simp [leafKind] at hk
  | .leaf (.ndarray _ [] _) => injection hk with hk; subst hk; rfl
  | .leaf (.ndarray d [_] _) => injection hk with hk; subst hk; rfl
  | .leaf (.ndarray _ (_ :: _ :: _) _) =>
    injection hk with hk; subst hk
    simp [npBuiltins, ownSer, npIntSer, npFloatSer, strSer, npCol, kindCol, boolSer, intSer, floatSer, videoSer, tiffSer,
      fileSer, pilSer, jpegSer, jpegArraySer, bytesSer, noHeaderNumpySer, numpySer]
  | .leaf (.tensor d shape _) =>
    simp only [leafKind] at hk
    split at hk
    · simp at hk
    · split at hk
      · injection hk with hk; subst hk; rfl
      · rename_i h
        injection hk with hk; subst hk
        have : (shape.length == 1) = false := by
          simp only [beq_eq_false_iff_ne, ne_eq, List.length_eq_one_iff, not_exists]
          exact h
        simp [npBuiltins, ownSer, npIntSer, npFloatSer, strSer, npCol, kindCol, boolSer, intSer, floatSer, videoSer, tiffSer,
          fileSer, pilSer, jpegSer, jpegArraySer, bytesSer, noHeaderNumpySer, numpySer, noHeaderTensorSer, tensorSer, this, bne]
  | .leaf (.other _) => injection hk with hk; subst hk; rfl
  | .node _ _ => simp [leafKind] at hk

/-- The serializer of the kind writes the bytes it writes without NumPy scalars, and reading them gives the leaf with NumPy scalars. -/
theorem npCol_own (env : SerEnv) (pickle : PyVal → Bytes) (unpickle : Bytes → Py PyVal) (hu : Unpickles env unpickle) (x : LeafTree) (k : Kind)
    (hk : leafKind env x = some k) (hf : LeafFits env x) :
    ∃ b n, (kindCol env k).ser.serialize x = .ok (b, n) ∧ (npCol env pickle unpickle k).ser.serialize (.own x) = .ok (b, n) ∧
      (npCol env pickle unpickle k).fmt = formatOf (npCol env pickle unpickle k).key n ∧
      (npCol env pickle unpickle k).ser.deserialize (npCol env pickle unpickle k).fmt b = .ok (asRead x) ∧
      recordedSize (npCol env pickle unpickle k).ser b = b.length ∧
      -- what is read is written as the same bytes by the same serializer
      (npCol env pickle unpickle k).ser.serialize (asRead x) = .ok (b, n) := by
  obtain ⟨b, n, h1, h2, _, h4, h5⟩ := kind_handles env x k hk hf
  obtain ⟨n1, n2⟩ := npCol_names env pickle unpickle k
  refine ⟨b, n, h1, ?_, by rw [n1, n2]; exact h2, ?_, ?_, ?_⟩
  · cases k <;> exact h1
  · cases k with
    | int =>
      match x, hk with
      | .leaf (.int i), _ =>
        simp only [kindCol, intSer] at h4
        simp only [npCol, npIntSer, asRead]
        cases hb : first8 b with
        | error e => rw [hb] at h4; cases h4
        | ok c =>
          rw [hb] at h4
          simp only [Except.ok.injEq, Tree.leaf.injEq, Leaf.int.injEq] at h4
          simp [Except.map, h4]
    | float =>
      match x, hk with
      | .leaf (.float i), _ =>
        simp only [kindCol, floatSer] at h4
        simp only [npCol, npFloatSer, asRead]
        cases hb : first8 b with
        | error e => rw [hb] at h4; cases h4
        | ok c =>
          rw [hb] at h4
          simp only [Except.ok.injEq, Tree.leaf.injEq, Leaf.float.injEq] at h4
          simp [Except.map, h4]
    | pickled =>
      have ha : asRead x = .own x := by
        unfold asRead
        split
        · simp [leafKind] at hk
        · simp [leafKind] at hk
        · rfl
      have hb : b = env.pickle x := by
        simp only [kindCol, pickleSer] at h1
        injection h1 with h1
        injection h1 with h1 _
        exact h1.symm
      subst hb
      rw [ha]
      exact hu x h4
    | _ =>
      have ha : asRead x = .own x := by
        unfold asRead
        split
        · simp [leafKind] at hk
        · simp [leafKind] at hk
        · rfl
      rw [ha]
      exact congrArg (Except.map PyVal.own) h4
  · cases k <;> exact h5
  · cases k with
    | int =>
      match x, hk with
      | .leaf (.int i), _ =>
        simp only [kindCol, intSer] at h1
        simp only [npCol, npIntSer, asRead]
        cases hb : int64Bytes i with
        | error e => rw [hb] at h1; cases h1
        | ok c => rw [hb] at h1; exact h1
    | float =>
      match x, hk with
      | .leaf (.float i), _ => exact h1
    | _ =>
      have ha : asRead x = .own x := by
        unfold asRead
        split
        · simp [leafKind] at hk
        · simp [leafKind] at hk
        · rfl
      rw [ha]
      exact h1

theorem kind_int {env : SerEnv} {l : LeafTree} (h : leafKind env l = some .int) : ∃ i, l = .leaf (.int i) := by
  unfold leafKind at h
  (repeat' split at h) <;> first | exact ⟨_, rfl⟩ | cases h

/-- What is read, as it is taken when it is written again: an `np.int64` is no `int`. -/
def kindAgain : Kind → Kind
  | .int => .pickled
  | k => k

theorem npPicks_asRead (env : SerEnv) (pickle : PyVal → Bytes) (unpickle : Bytes → Py PyVal) (x : LeafTree) (k : Kind) (hk : leafKind env x = some k) :
    (npBuiltins env pickle unpickle).find? (fun e => e.2.canSerialize (asRead x)) =
      some ((npCol env pickle unpickle (kindAgain k)).key, (npCol env pickle unpickle (kindAgain k)).ser) := by
  match x with
  | .leaf (.int i) => injection hk with hk; subst hk; rfl
  | .leaf (.float w) => injection hk with hk; subst hk; rfl
  | .node _ _ => simp [leafKind] at hk
  | .leaf (.jpeg _) => simp [leafKind] at hk
  | .leaf (.str s) | .leaf (.bool s) | .leaf (.bytes s) | .leaf (.pil ..) | .leaf (.ndarray ..) | .leaf (.tensor ..) | .leaf (.other _) =>
    have hka : kindAgain k = k := by
      cases k with
      | int =>
        obtain ⟨i, hi⟩ := kind_int hk
        cases hi
      | _ => rfl
    rw [hka]
    exact npPicks_own env pickle unpickle _ k hk

/-- The columns of a first sample. -/
def npCols (env : SerEnv) (pickle : PyVal → Bytes) (unpickle : Bytes → Py PyVal) (again : Kind → Kind) (x : List LeafTree) : List (Col PyVal) :=
  x.map fun l => npCol env pickle unpickle (again ((leafKind env l).getD .str))

/-- The leaves can be stored: each is of a kind that the built-in serializers handle, of the kind of the leaf of the first sample at its place, and takes less than 4 GiB. -/
structure Storables (env : SerEnv) (x y : List LeafTree) : Prop where
  kinds : ∀ l ∈ y, (leafKind env l).isSome
  same : y.map (leafKind env) = x.map (leafKind env)
  fits : ∀ l ∈ y, LeafFits env l
  small : ∀ l ∈ y, ∀ k, leafKind env l = some k → ∀ b n, (kindCol env k).ser.serialize l = .ok (b, n) → b.length < 2 ^ 32

theorem Storables.tail {env : SerEnv} {l l' : LeafTree} {x y : List LeafTree} (h : Storables env (l :: x) (l' :: y)) : Storables env x y where
  kinds a ha := h.kinds a (List.mem_cons_of_mem _ ha)
  same := by have := h.same; simp only [List.map_cons, List.cons.injEq] at this; exact this.2
  fits a ha := h.fits a (List.mem_cons_of_mem _ ha)
  small a ha := h.small a (List.mem_cons_of_mem _ ha)

theorem Storables.head {env : SerEnv} {l l' : LeafTree} {x y : List LeafTree} (h : Storables env (l :: x) (l' :: y)) :
    ∃ k, leafKind env l = some k ∧ leafKind env l' = some k ∧ LeafFits env l' := by
  have hs := h.same
  simp only [List.map_cons, List.cons.injEq] at hs
  obtain ⟨k, hk⟩ := Option.isSome_iff_exists.mp (h.kinds l' (by simp))
  exact ⟨k, hs.1 ▸ hk, hk, h.fits l' (by simp)⟩

variable {env : SerEnv} {pickle : PyVal → Bytes} {unpickle : Bytes → Py PyVal}

theorem npCols_ok (again : Kind → Kind) (x : List LeafTree) : ∀ c ∈ npCols env pickle unpickle again x, ColOk (npBuiltins env pickle unpickle) c := by
  intro c hc
  obtain ⟨l, _, rfl⟩ := List.mem_map.mp hc
  exact npCol_ok env pickle unpickle _

theorem np_picks_own (hu : Unpickles env unpickle) : ∀ (x : List LeafTree), Storables env x x →
    Aligned (Picks (npBuiltins env pickle unpickle)) (x.map .own) (npCols env pickle unpickle id x)
  | [], _ => trivial
  | l :: x, h => by
    obtain ⟨k, hk, _, hf⟩ := h.head
    obtain ⟨b, n, _, h2, h3, _⟩ := npCol_own env pickle unpickle hu l k hk hf
    refine ⟨?_, np_picks_own hu x h.tail⟩
    simp only [hk, Option.getD_some, id]
    exact ⟨npPicks_own env pickle unpickle l k hk, b, n, h2, h3⟩

theorem np_handles_own (hu : Unpickles env unpickle) : ∀ (x y : List LeafTree), Storables env x y →
    Aligned3 Handles (npCols env pickle unpickle id x) (y.map .own) (y.map asRead)
  | [], [], _ => trivial
  | l :: x, l' :: y, h => by
    obtain ⟨k, hk, hk', hf⟩ := h.head
    obtain ⟨b, n, h1, h2, h3, h4, h5, _⟩ := npCol_own env pickle unpickle hu l' k hk' hf
    refine ⟨?_, np_handles_own hu x y h.tail⟩
    simp only [hk, Option.getD_some, id]
    exact ⟨b, n, h2, h4, h5, h.small l' (by simp) k hk' b n h1⟩
  | [], _ :: _, h => by have := h.same; simp at this
  | _ :: _, [], h => by have := h.same; simp at this

/-- NumPy integers of 64 bits survive pickling and their pickles are small. -/
def UnpicklesInts (pickle : PyVal → Bytes) (unpickle : Bytes → Py PyVal) : Prop :=
  ∀ i, -(2 ^ 63 : Int) ≤ i ∧ i < 2 ^ 63 → unpickle (pickle (.npInt i)) = .ok (.npInt i) ∧ (pickle (.npInt i)).length < 2 ^ 32

theorem np_handles_read (hu : Unpickles env unpickle) (hi : UnpicklesInts pickle unpickle) : ∀ (x y : List LeafTree), Storables env x y →
    Aligned3 Handles (npCols env pickle unpickle kindAgain x) (y.map asRead) (y.map asRead)
  | [], [], _ => trivial
  | l :: x, l' :: y, h => by
    obtain ⟨k, hk, hk', hf⟩ := h.head
    refine ⟨?_, np_handles_read hu hi x y h.tail⟩
    simp only [hk, Option.getD_some]
    by_cases hint : k = .int
    · subst hint
      obtain ⟨i, rfl⟩ := kind_int hk'
      exact ⟨pickle (.npInt i), none, rfl, (hi i hf).1, rfl, (hi i hf).2⟩
    · have hka : kindAgain k = k := by cases k <;> first | rfl | exact absurd rfl hint
      rw [hka]
      obtain ⟨b, n, h1, h2, h3, h4, h5, h6⟩ := npCol_own env pickle unpickle hu l' k hk' hf
      exact ⟨b, n, h6, h4, h5, h.small l' (by simp) k hk' b n h1⟩
  | [], _ :: _, h => by have := h.same; simp at this
  | _ :: _, [], h => by have := h.same; simp at this

theorem np_picks_read (hu : Unpickles env unpickle) : ∀ (x : List LeafTree), Storables env x x →
    Aligned (Picks (npBuiltins env pickle unpickle)) (x.map asRead) (npCols env pickle unpickle kindAgain x)
  | [], _ => trivial
  | l :: x, h => by
    obtain ⟨k, hk, _, hf⟩ := h.head
    refine ⟨?_, np_picks_read hu x h.tail⟩
    simp only [hk, Option.getD_some]
    refine ⟨npPicks_asRead env pickle unpickle l k hk, ?_⟩
    by_cases hint : k = .int
    · subst hint
      obtain ⟨i, rfl⟩ := kind_int hk
      exact ⟨pickle (.npInt i), none, rfl, rfl⟩
    · have hka : kindAgain k = k := by cases k <;> first | rfl | exact absurd rfl hint
      rw [hka]
      obtain ⟨b, n, _, _, h3, _, _, h6⟩ := npCol_own env pickle unpickle hu l k hk hf
      exact ⟨b, n, h6, h3⟩

/-- The columns give both leaves the same bytes. -/
def SameBytes (c : Col PyVal) (y z : PyVal) : Prop := c.ser.serialize y = c.ser.serialize z

theorem np_same_bytes (hu : Unpickles env unpickle) : ∀ (x y : List LeafTree), Storables env x y →
    Aligned3 SameBytes (npCols env pickle unpickle id x) (y.map .own) (y.map asRead)
  | [], [], _ => trivial
  | l :: x, l' :: y, h => by
    obtain ⟨k, hk, hk', hf⟩ := h.head
    obtain ⟨b, n, h1, h2, h3, h4, h5, h6⟩ := npCol_own env pickle unpickle hu l' k hk' hf
    refine ⟨?_, np_same_bytes hu x y h.tail⟩
    simp only [hk, Option.getD_some, id, SameBytes]
    rw [h2, h6]
  | [], _ :: _, h => by have := h.same; simp at this
  | _ :: _, [], h => by have := h.same; simp at this

theorem serializeNext_same (extra : Table PyVal) : ∀ (cols : List (Col PyVal)) (ys zs : List PyVal), (∀ c ∈ cols, extra.lookup c.fmt = some c.ser) →
    Aligned3 SameBytes cols ys zs → serializeNext extra ys (cols.map (·.fmt)) = serializeNext extra zs (cols.map (·.fmt))
  | [], [], [], _, _ => rfl
  | c :: cols, y :: ys, z :: zs, he, ⟨h1, h2⟩ => by
    rw [List.map_cons, serializeNext, serializeNext, he c (by simp)]
    unfold SameBytes at h1
    simp only [h1]
    rw [serializeNext_same extra cols ys zs (fun c' h' => he c' (List.mem_cons_of_mem _ h')) h2]

theorem serializeAll_same (sers : Table PyVal) (cols : List (Col PyVal)) (st : SerState PyVal) (hf : st.format = some (cols.map (·.fmt)))
    (he : ∀ c ∈ cols, st.extra.lookup c.fmt = some c.ser) (f g : List LeafTree → List PyVal × TSpec) : ∀ (xs : List (List LeafTree)),
    (∀ y ∈ xs, Aligned3 SameBytes cols (f y).1 (g y).1) → serializeAll sers f st xs = serializeAll sers g st xs
  | [], _ => rfl
  | y :: xs, h => by
    have h1 := serializeNext_same st.extra cols _ _ he (h y (by simp))
    simp only [serializeAll, serializeSample, hf, h1]
    by_cases hn : cols.map (·.fmt) = []
    · simp only [if_pos hn]
    · simp only [if_neg hn]
      cases serializeNext st.extra (g y).1 (cols.map (·.fmt)) with
      | error e => rfl
      | ok ds =>
        simp only
        rw [serializeAll_same sers cols st hf he f g xs (fun z hz => h z (List.mem_cons_of_mem _ hz))]

theorem serializeFirst_same (sers : Table PyVal) : ∀ (cols : List (Col PyVal)) (ys zs : List PyVal), Aligned (Picks sers) ys cols → Aligned (Picks sers) zs cols →
    Aligned3 SameBytes cols ys zs → ∀ extra, serializeFirst sers extra ys = serializeFirst sers extra zs
  | [], [], [], _, _, _, _ => rfl
  | c :: cols, y :: ys, z :: zs, ⟨⟨p1, _⟩, p2⟩, ⟨⟨q1, _⟩, q2⟩, ⟨h1, h2⟩, extra => by
    unfold SameBytes at h1
    simp only [serializeFirst, serializeLeaf, p1, q1, h1]
    cases c.ser.serialize z with
    | error e => rfl
    | ok r =>
      simp only
      rw [serializeFirst_same sers cols ys zs p2 q2 h2]

/-- **C84.** Samples written with the built-in serializers are read with NumPy scalars in place of numbers, everything else being as it was. If no leaf is an integer, then
writing the samples that were read gives the same bytes, the same data format and the same structure. Missing: integers (`c84_ints_are_pickled`), for which it is false,
images kept as JPEG files, which are read as tensors (`c84_jpeg`), and images with a palette (`c12_palette_lost`). -/
theorem c84_written_again_partial (env : SerEnv) (pickle : PyVal → Bytes) (unpickle : Bytes → Py PyVal) (hu : Unpickles env unpickle)
    (x : List LeafTree) (xs : List (List LeafTree)) (spec : TSpec) (hne : x ≠ []) (hs : ∀ y ∈ x :: xs, Storables env x y) :
    ∃ bytes formats st, serializeAll (npBuiltins env pickle unpickle) (fun y => (y.map .own, spec)) SerState.init (x :: xs) = .ok (bytes, st) ∧
      st.format = some formats ∧ st.spec = some spec ∧
      (∃ d, setupFormats (ReadTable.ofTable (npBuiltins env pickle unpickle)) formats = .ok d ∧
        Aligned (fun y b => deserializeSample d formats b = .ok (y.map asRead)) (x :: xs) bytes) ∧
      ((∀ l ∈ x, leafKind env l ≠ some .int) →
        serializeAll (npBuiltins env pickle unpickle) (fun y => (y.map asRead, spec)) SerState.init (x :: xs) = .ok (bytes, st)) := by
  have hcne : npCols env pickle unpickle id x ≠ [] := by simpa [npCols] using hne
  have hxx := hs x (by simp)
  obtain ⟨bytes, extra, h1, d, h2, h3⟩ := serializeAll_ok (npBuiltins env pickle unpickle) (fun y : List LeafTree => (y.map PyVal.own, spec))
    (npCols env pickle unpickle id x) (npCols_ok id x) hcne x xs (fun y => y.map asRead) (np_picks_own hu x hxx)
    (fun y hy => np_handles_own hu x y (hs y hy))
  refine ⟨bytes, _, _, h1, rfl, rfl, ⟨d, h2, h3⟩, fun hint => ?_⟩
  rw [← h1]
  have hagain : npCols env pickle unpickle kindAgain x = npCols env pickle unpickle id x := by
    apply List.map_congr_left
    intro l hl
    have := hint l hl
    cases hk : leafKind env l with
    | none => rfl
    | some k =>
      cases k <;> first | rfl | exact absurd hk this
  have hp := np_picks_read (pickle := pickle) hu x hxx
  rw [hagain] at hp
  have hsame := serializeFirst_same (npBuiltins env pickle unpickle) _ _ _ (np_picks_own hu x hxx) hp (np_same_bytes hu x x hxx) []
  obtain ⟨ds, extra', g1, _, g3, _⟩ := serializeFirst_ok (npBuiltins env pickle unpickle) (npCols env pickle unpickle id x) _ _ (npCols_ok id x)
    (np_picks_own hu x hxx) (np_handles_own hu x x hxx) [] (by intro c _ s h; simp at h)
  simp only [serializeAll, serializeSample, SerState.init, ← hsame, g1]
  rw [serializeAll_same (npBuiltins env pickle unpickle) (npCols env pickle unpickle id x)
    ⟨some ((npCols env pickle unpickle id x).map (·.fmt)), some spec, extra'⟩ rfl g3
    (fun y : List LeafTree => (y.map PyVal.own, spec)) (fun y : List LeafTree => (y.map asRead, spec)) xs
    (fun y hy => np_same_bytes hu x y (hs y (List.mem_cons_of_mem _ hy)))]

/-- The data format recorded for leaves of these kinds. -/
def formatsOf (env : SerEnv) (again : Kind → Kind) (x : List LeafTree) : List String :=
  x.map fun l => (kindCol env (again ((leafKind env l).getD .str))).fmt

theorem npCols_formats (again : Kind → Kind) (x : List LeafTree) :
    (npCols env pickle unpickle again x).map (·.fmt) = formatsOf env again x := by
  simp only [npCols, formatsOf, List.map_map]
  apply List.map_congr_left
  intro l _
  exact (npCol_names env pickle unpickle _).2

/-- **C84, integers are pickled.** Writing samples that were read succeeds, and they are read once more as they were. But the data format of each integer is now `pickle`
instead of `int`, because an `np.int64` is no `int`: with an integer among the leaves, the two datasets have different data formats. -/
theorem c84_ints_are_pickled (env : SerEnv) (pickle : PyVal → Bytes) (unpickle : Bytes → Py PyVal) (hu : Unpickles env unpickle)
    (hi : UnpicklesInts pickle unpickle) (x : List LeafTree) (xs : List (List LeafTree)) (spec : TSpec) (hne : x ≠ []) (hs : ∀ y ∈ x :: xs, Storables env x y) :
    ∃ bytes st bytes' st', serializeAll (npBuiltins env pickle unpickle) (fun y => (y.map .own, spec)) SerState.init (x :: xs) = .ok (bytes, st) ∧
      serializeAll (npBuiltins env pickle unpickle) (fun y => (y.map asRead, spec)) SerState.init (x :: xs) = .ok (bytes', st') ∧
      (∃ formats' d, st'.format = some formats' ∧ setupFormats (ReadTable.ofTable (npBuiltins env pickle unpickle)) formats' = .ok d ∧
        Aligned (fun y b => deserializeSample d formats' b = .ok (y.map asRead)) (x :: xs) bytes') ∧
      (∀ (n : Nat) i, x[n]? = some (Tree.leaf (Leaf.int i)) → (st.format.getD [])[n]? = some "int" ∧ (st'.format.getD [])[n]? = some "pickle") ∧
      ((∃ i, Tree.leaf (Leaf.int i) ∈ x) → st.format ≠ st'.format) := by
  have hxx := hs x (by simp)
  obtain ⟨bytes, extra, h1, _⟩ := serializeAll_ok (npBuiltins env pickle unpickle) (fun y : List LeafTree => (y.map PyVal.own, spec))
    (npCols env pickle unpickle id x) (npCols_ok id x) (by simpa [npCols] using hne) x xs (fun y => y.map asRead) (np_picks_own hu x hxx)
    (fun y hy => np_handles_own hu x y (hs y hy))
  obtain ⟨bytes', extra', g1, d, g2, g3⟩ := serializeAll_ok (npBuiltins env pickle unpickle) (fun y : List LeafTree => (y.map asRead, spec))
    (npCols env pickle unpickle kindAgain x) (npCols_ok kindAgain x) (by simpa [npCols] using hne) x xs (fun y => y.map asRead) (np_picks_read hu x hxx)
    (fun y hy => np_handles_read hu hi x y (hs y hy))
  have key : ∀ (n : Nat) i, x[n]? = some (Tree.leaf (Leaf.int i)) → (formatsOf env id x)[n]? = some "int" ∧ (formatsOf env kindAgain x)[n]? = some "pickle" := by
    intro n i hx
    simp only [formatsOf, List.getElem?_map, hx]
    exact ⟨rfl, rfl⟩
  refine ⟨bytes, _, bytes', _, h1, g1, ⟨_, d, rfl, g2, g3⟩, ?_, ?_⟩
  · intro n i hx
    simp only [npCols_formats, Option.getD_some]
    exact key n i hx
  · rintro ⟨i, hm⟩ heq
    obtain ⟨n, hn⟩ := List.getElem?_of_mem hm
    simp only [npCols_formats, Option.some.injEq] at heq
    obtain ⟨k1, k2⟩ := key n i hn
    rw [heq, k2] at k1
    simp at k1

/-- **C84, appending is refused.** If the data written later has another configuration than the dataset it is appended to, as it has another data format, merging raises
and the dataset keeps its index. -/
theorem c84_append_refused {C : Type} [DecidableEq C] (d : CacheDir C) (hn : (d.map (·.1)).Nodup)
    (hi : ∀ e ∈ d, isIndexName e.1 = true → ∃ x, e.2 = .index x) (f : String) (y : IndexData C) (a b : C)
    (hf : (f, .index y) ∈ d) (hfi : isIndexName f = true) (hy : y.config = some b) (old : IndexData C) (ho : old.config = some a) (hab : a ≠ b)
    (node : Option Nat) : (mergeNoWait node (some old) d).1 = .error .exception := by
  have hmem : ∀ e, e ∈ sortBy strLe ((d.map (·.1)).filter isIndexName) ↔ e ∈ d.map (·.1) ∧ isIndexName e = true := by
    intro e
    rw [(sortBy_perm _ _).mem_iff, List.mem_filter]
  have hnd : (sortBy strLe ((d.map (·.1)).filter isIndexName)).Nodup := (sortBy_perm _ _).nodup_iff.2 (hn.filter _)
  have hall : ∀ e ∈ sortBy strLe ((d.map (·.1)).filter isIndexName), ∃ x, dirGet d e = some (.index x) := by
    intro e he
    obtain ⟨h1, h2⟩ := (hmem e).1 he
    obtain ⟨p, hp, rfl⟩ := List.mem_map.1 h1
    obtain ⟨x, hx⟩ := hi p hp h2
    exact ⟨x, dirGet_mem d hn _ _ (by rw [← hx]; exact hp)⟩
  have hcfg := mergeLoop_config (sortBy strLe ((d.map (·.1)).filter isIndexName)) hnd d
    (mergeLoop (sortBy strLe ((d.map (·.1)).filter isIndexName)) d old).2 old
  have herr := mergeLoop_error (sortBy strLe ((d.map (·.1)).filter isIndexName)) hnd d old hall
  unfold mergeNoWait
  simp only [Option.getD_some]
  generalize mergeLoop (sortBy strLe ((d.map (·.1)).filter isIndexName)) d old = r at hcfg herr
  obtain ⟨r1, r2⟩ := r
  cases r1 with
  | error e =>
    simp only
    rw [herr e rfl]
  | ok i =>
    exfalso
    obtain ⟨h0, h1⟩ := hcfg i rfl
    obtain ⟨y', hy', hy''⟩ := h1 f ((hmem f).2 ⟨List.mem_map_of_mem hf, hfi⟩)
    rw [dirGet_mem d hn _ _ hf] at hy'
    injection hy' with hy'; injection hy' with hy'
    subst hy'
    have h2 := h0 a ho
    rw [hy'' b hy] at h2
    injection h2 with h2
    exact hab h2.symm

/-- **C84, JPEG images.** An image kept as a JPEG file is written under the format `jpeg` and read as the tensor that its file decodes to; writing that tensor gives the
format `tensor`, with the pixels in place of the file. -/
theorem c84_jpeg (env : SerEnv) (pickle : PyVal → Bytes) (unpickle : Bytes → Py PyVal) (file : Bytes) (d : TorchDType) (shape : List Nat) (data : Bytes)
    (hd : env.decodeJpeg file = .ok (.leaf (.tensor d shape data))) (hs : shape.length ≠ 1) (hb : d ≠ .bfloat16) (extra : Table PyVal) :
    (∃ size e, serializeLeaf (npBuiltins env pickle unpickle) extra (.own (.leaf (.jpeg file))) = .ok ((file, size), "jpeg", e)) ∧
      (∀ s fmt, (npBuiltins env pickle unpickle).lookup "jpeg" = some s → s.deserialize fmt file = .ok (.own (.leaf (.tensor d shape data)))) ∧
      ∃ header size e, serializeLeaf (npBuiltins env pickle unpickle) extra (.own (.leaf (.tensor d shape data))) = .ok ((header ++ data, size), "tensor", e) := by
  have hb1 : (shape.length == 1) = false := by simpa using hs
  have hfind : (npBuiltins env pickle unpickle).find? (fun e => e.2.canSerialize (.own (.leaf (.tensor d shape data)))) = some ("tensor", ownSer tensorSer) := by
    simp [npBuiltins, ownSer, npIntSer, npFloatSer, strSer, boolSer, intSer, floatSer, videoSer, tiffSer,
      fileSer, pilSer, jpegSer, jpegArraySer, bytesSer, noHeaderNumpySer, numpySer, noHeaderTensorSer, tensorSer, hb1, bne]
  obtain ⟨i, hi⟩ : ∃ i, lastIndex d torchTable = some i := by cases d <;> exact ⟨_, rfl⟩
  refine ⟨⟨_, _, rfl⟩, ?_, arrayHeader i shape, ?_⟩
  · intro s fmt hl
    have : s = ownSer (jpegSer env) := by
      have h0 : (npBuiltins env pickle unpickle).lookup "jpeg" = some (ownSer (jpegSer env)) := rfl
      rw [h0] at hl
      injection hl with hl
      exact hl.symm
    subst this
    simp [ownSer, jpegSer, hd, Except.map]
  · unfold serializeLeaf
    rw [hfind]
    simp only [ownSer, tensorSer, hi, if_neg hb, formatOf]
    exact ⟨_, _, rfl⟩

/-! Witnesses: two samples of bytes and a float, and two with an integer. -/

theorem demo_storables (a b : Bytes) (v w : UInt64) (hb : b.length < 2 ^ 32) :
    Storables demoSerEnv [.leaf (.bytes a), .leaf (.float v)] [.leaf (.bytes b), .leaf (.float w)] := by
  refine ⟨by simp [leafKind], rfl, by simp [LeafFits], ?_⟩
  intro l hl k hk c n hs
  simp only [List.mem_cons, List.not_mem_nil, or_false] at hl
  rcases hl with rfl | rfl
  · injection hk with hk; subst hk
    injection hs with hs; injection hs with hs _
    rw [← hs]; exact hb
  · injection hk with hk; subst hk
    injection hs with hs; injection hs with hs _
    rw [← hs, leBytes_length]; decide

example : ∃ bytes formats st, serializeAll (npBuiltins demoSerEnv (fun _ => []) (fun _ => .error .runtimeError)) (fun y => (y.map .own, TSpec.leaf)) SerState.init
      [[.leaf (.bytes [1, 2]), .leaf (.float 5)], [.leaf (.bytes []), .leaf (.float 7)]] = .ok (bytes, st) ∧ st.format = some formats ∧ st.spec = some TSpec.leaf ∧
      (∃ d, setupFormats (ReadTable.ofTable (npBuiltins demoSerEnv (fun _ => []) (fun _ => .error .runtimeError))) formats = .ok d ∧
        Aligned (fun y b => deserializeSample d formats b = .ok (y.map asRead)) [[.leaf (.bytes [1, 2]), .leaf (.float 5)], [.leaf (.bytes []), .leaf (.float 7)]] bytes) ∧
      ((∀ l ∈ [Tree.leaf (Leaf.bytes [1, 2]), .leaf (.float 5)], leafKind demoSerEnv l ≠ some .int) →
        serializeAll (npBuiltins demoSerEnv (fun _ => []) (fun _ => .error .runtimeError)) (fun y => (y.map asRead, TSpec.leaf)) SerState.init
          [[.leaf (.bytes [1, 2]), .leaf (.float 5)], [.leaf (.bytes []), .leaf (.float 7)]] = .ok (bytes, st)) :=
  c84_written_again_partial demoSerEnv _ _ (fun t h => by simp [demoSerEnv] at h) _ _ _ (by simp) (by
    intro y hy
    simp only [List.mem_cons, List.not_mem_nil, or_false] at hy
    rcases hy with rfl | rfl
    · exact demo_storables [1, 2] [1, 2] 5 5 (by decide)
    · exact demo_storables [1, 2] [] 5 7 (by decide))

example : ∀ l ∈ [Tree.leaf (Leaf.bytes [1, 2]), .leaf (.float 5)], leafKind demoSerEnv l ≠ some .int := by simp [leafKind]

/-- A stand-in for pickle: the bytes of the integer. -/
def demoPickle : PyVal → Bytes
  | .npInt i => leBytes 8 (i % 2 ^ 64).toNat
  | _ => []

theorem demo_unpickles : UnpicklesInts demoPickle (fun b => (first8 b).map fun b => .npInt (int64Of b)) := by
  intro i hi
  refine ⟨?_, by simp only [demoPickle, leBytes_length]; decide⟩
  simp only [demoPickle, first8_leBytes, Except.map, int64Of_leBytes i hi.1 hi.2]

theorem demo_int_storables (i j : Int) (hj : -(2 ^ 63 : Int) ≤ j ∧ j < 2 ^ 63) : Storables demoSerEnv [.leaf (.int i)] [.leaf (.int j)] := by
  refine ⟨by simp [leafKind], rfl, by intro l hl; rw [List.mem_singleton.mp hl]; exact hj, ?_⟩
  intro l hl k hk c n hs
  rw [List.mem_singleton.mp hl] at hk hs
  injection hk with hk; subst hk
  simp only [kindCol, intSer, int64Bytes, if_pos hj] at hs
  injection hs with hs; injection hs with hs _
  rw [← hs, leBytes_length]; decide

example := c84_ints_are_pickled demoSerEnv demoPickle _ (fun t h => by simp [demoSerEnv] at h) demo_unpickles [.leaf (.int 3)] [[.leaf (.int (-1))]] .leaf (by simp) (by
    intro y hy
    simp only [List.mem_cons, List.not_mem_nil, or_false] at hy
    rcases hy with rfl | rfl
    · exact demo_int_storables 3 3 (by decide)
    · exact demo_int_storables 3 (-1) (by decide))

example : (mergeNoWait none (some ⟨[⟨"chunk-0-0.bin", 5, 9, none⟩], some ["int"]⟩)
    ([(rankIndexName 0, .index ⟨[⟨"chunk-0-1.bin", 5, 9, none⟩], some ["pickle"]⟩)] : CacheDir (List String))).1 = .error .exception :=
  c84_append_refused _ (by decide) (by intro e he _; rw [List.mem_singleton.mp he]; exact ⟨_, rfl⟩) (rankIndexName 0) _ ["int"] ["pickle"] List.mem_cons_self
    (by decide +kernel) rfl _ rfl (by decide) none

example := c84_jpeg { demoSerEnv with decodeJpeg := fun _ => .ok (.leaf (.tensor .uint8 [3, 1, 1] [9, 9, 9])) } (fun _ => []) (fun _ => .error .runtimeError)
  [255, 216] .uint8 [3, 1, 1] [9, 9, 9] rfl (by decide) (by decide) []

end LitData.Props
