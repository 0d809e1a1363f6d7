import Verif.Props.TreeMap

/-! Property C80: mapping over nested samples. -/

namespace LitData.Props
open LitData Spec

theorem all_ok {β γ : Type} (F : β → Py γ) (l : List β) (h : ∀ x ∈ l, ∃ y, F x = .ok y) : ∃ ys : List γ, l.map F = ys.map .ok := by
  induction l with
  | nil => exact ⟨[], rfl⟩
  | cons x l ih =>
    obtain ⟨y, hy⟩ := h x (by simp)
    obtain ⟨ys, hys⟩ := ih (fun z hz => h z (by simp [hz]))
    exact ⟨y :: ys, by simp only [List.map_cons, hy, hys]⟩

theorem mapPy_ok_iff {β γ : Type} (F : β → Py γ) (l : List β) (ys : List γ) : mapPy F l = .ok ys ↔ l.map F = ys.map .ok := by
  induction l generalizing ys with
  | nil => cases ys <;> simp [mapPy]
  | cons x l ih =>
    unfold mapPy
    cases hx : F x with
    | error e => cases ys <;> simp [hx]
    | ok y =>
      simp only [List.map_cons, hx]
      cases hr : mapPy F l with
      | error e =>
        simp only [reduceCtorEq, false_iff]
        cases ys with
        | nil => simp
        | cons z zs =>
          simp only [List.map_cons, List.cons.injEq, not_and]
          intro _ h
          rw [(ih zs).2 h] at hr
          cases hr
      | ok zs =>
        have := (ih zs).1 hr
        simp only [Except.ok.injEq]
        cases ys with
        | nil => simp
        | cons w ws =>
          simp only [List.map_cons, List.cons.injEq, Except.ok.injEq, this]
          exact ⟨fun h => ⟨h.1, by rw [h.2]⟩, fun h => ⟨h.1, map_ok_inj h.2⟩⟩

theorem mapPy_map {β γ δ : Type} (F : γ → Py δ) (g : β → γ) (l : List β) : mapPy F (l.map g) = mapPy (fun x => F (g x)) l := by
  induction l with
  | nil => rfl
  | cons x l ih => simp only [List.map_cons, mapPy, ih]

theorem mapPy_error_iff {β γ : Type} (F : β → Py γ) (l : List β) (e : Err) :
    mapPy F l = .error e ↔ ∃ pre x post, l = pre ++ x :: post ∧ (∀ y ∈ pre, ∃ z, F y = .ok z) ∧ F x = .error e := by
  induction l with
  | nil => simp [mapPy]
  | cons x l ih =>
    unfold mapPy
    cases hx : F x with
    | error e' =>
      simp only [Except.error.injEq]
      constructor
      · rintro rfl
        exact ⟨[], x, l, rfl, by simp, hx⟩
      · rintro ⟨pre, y, post, h1, h2, h3⟩
        cases pre with
        | nil => simp only [List.nil_append, List.cons.injEq] at h1; rw [← h1.1, hx] at h3; cases h3; rfl
        | cons p pre =>
          simp only [List.cons_append, List.cons.injEq] at h1
          obtain ⟨z, hz⟩ := h2 p (by simp)
          rw [← h1.1, hx] at hz
          cases hz
    | ok y =>
      simp only
      refine Iff.trans (b := mapPy F l = .error e) (by cases mapPy F l <;> simp) ?_
      rw [ih]
      constructor
      · rintro ⟨pre, z, post, rfl, h2, h3⟩
        refine ⟨x :: pre, z, post, rfl, ?_, h3⟩
        intro w hw
        rcases List.mem_cons.1 hw with rfl | hw
        · exact ⟨y, hx⟩
        · exact h2 w hw
      · rintro ⟨pre, z, post, h1, h2, h3⟩
        cases pre with
        | nil => simp only [List.nil_append, List.cons.injEq] at h1; rw [← h1.1, hx] at h3; cases h3
        | cons p pre =>
          simp only [List.cons_append, List.cons.injEq] at h1
          exact ⟨pre, z, post, h1.2, fun w hw => h2 w (by simp [hw]), h3⟩

theorem rows_map {γ δ β : Type} (g : γ → δ) (xs : List γ) (cols : List (List β)) :
    rows (xs.map g) cols = (rows xs cols).map (fun a => (g a.1, a.2)) := by
  induction xs generalizing cols with
  | nil => rfl
  | cons x xs ih =>
    simp only [List.map_cons, rows]
    cases heads cols with
    | none => rfl
    | some r => simp only [List.map_cons, ih]

/-- The columns, read by rows. -/
theorem rows_zip {γ β κ ρ : Type} (G : ρ → κ → Py β) (ps : List κ) (rests : List ρ) (cols : List (List β))
    (h : cols.map (fun c => c.map Except.ok) = rests.map (fun r => ps.map (G r))) (xs : List γ) (hx : xs.length = ps.length) :
    ∃ argss : List (List β), argss.length = ps.length ∧ rows xs cols = xs.zip argss ∧
      ps.map (fun q => rests.map (fun r => G r q)) = argss.map (fun a => a.map .ok) := by
  induction ps generalizing cols xs with
  | nil =>
    cases xs with
    | nil => exact ⟨[], rfl, rfl, rfl⟩
    | cons x xs => simp at hx
  | cons p ps ih =>
    cases xs with
    | nil => simp at hx
    | cons x xs =>
      have key : ∀ (rests : List ρ) (cols : List (List β)), cols.map (fun c => c.map Except.ok) = rests.map (fun r => (p :: ps).map (G r)) →
          ∃ hs, heads cols = some hs ∧ rests.map (fun r => G r p) = hs.map .ok ∧
            (cols.map List.tail).map (fun c => c.map Except.ok) = rests.map (fun r => ps.map (G r)) := by
        intro rests
        induction rests with
        | nil =>
          intro cols h
          cases cols with
          | nil => exact ⟨[], rfl, rfl, rfl⟩
          | cons c cols => simp at h
        | cons r rests ih2 =>
          intro cols h
          cases cols with
          | nil => simp at h
          | cons c cols =>
            simp only [List.map_cons, List.cons.injEq] at h
            obtain ⟨hs, h1, h2, h3⟩ := ih2 cols (by simpa using h.2)
            cases c with
            | nil => simp at h
            | cons c0 c =>
              simp only [List.map_cons, List.cons.injEq] at h
              refine ⟨c0 :: hs, by simp [heads, h1], by simp only [List.map_cons, h2, ← h.1.1], ?_⟩
              simp only [List.map_cons, List.tail_cons, h.1.2, h3]
      obtain ⟨hs, h1, h2, h3⟩ := key rests cols h
      obtain ⟨argss, g1, g2, g3⟩ := ih (cols.map List.tail) h3 xs (by simpa using hx)
      refine ⟨hs :: argss, by simp [g1], ?_, ?_⟩
      · simp only [rows, h1, g2, List.zip_cons_cons]
      · simp only [List.map_cons, h2, g3]

section
variable {α : Type} (isJpeg : α → Bool) (isLeaf : Tree α → Bool) (fields : String → List String)

theorem flattenAll_iff (t : Tree α) (ht : TreeOk fields t) (rests : List (Tree α)) (hr : TreesOk fields rests) (cols : List (List (Tree α))) :
    flattenAll isJpeg (flattenW isJpeg isLeaf t).2 rests = .ok cols ↔ (∀ r ∈ rests, Covers isJpeg (isLeafNode isJpeg isLeaf) fields t r) ∧
      cols.map (fun c => c.map Except.ok) = rests.map (fun r => (keyPaths isJpeg isLeaf fields [] t).map (fun q => keyGet fields r q.1)) := by
  induction rests generalizing cols with
  | nil => cases cols <;> simp [flattenAll]
  | cons r rests ih =>
    simp only [TreesOk] at hr
    have h1 := upTo_iff isJpeg isLeaf fields t ht r hr.1
    have h2 := ih hr.2
    unfold flattenAll
    constructor
    · intro h
      cases ha : flattenUpTo isJpeg (flattenW isJpeg isLeaf t).2 r with
      | error e => rw [ha] at h; cases h
      | ok a =>
        rw [ha] at h
        simp only at h
        cases hb : flattenAll isJpeg (flattenW isJpeg isLeaf t).2 rests with
        | error e => rw [hb] at h; cases h
        | ok b =>
          rw [hb] at h
          cases h
          obtain ⟨a1, a2⟩ := (h1 a).1 ha
          obtain ⟨b1, b2⟩ := (h2 b).1 hb
          refine ⟨?_, by simp only [List.map_cons, a2, b2]⟩
          intro x hx
          rcases List.mem_cons.1 hx with rfl | hx
          · exact a1
          · exact b1 x hx
    · rintro ⟨k1, k2⟩
      cases cols with
      | nil => simp at k2
      | cons c cols =>
        simp only [List.map_cons, List.cons.injEq] at k2
        rw [(h1 c).2 ⟨k1 r (by simp), k2.1.symm⟩, (h2 cols).2 ⟨fun x hx => k1 x (by simp [hx]), k2.2⟩]

/-- **C80, mapping with key paths.** The call succeeds with `t'` exactly if the other samples have the containers of the first one (dictionaries in any order)
and `t'` has the containers of the first one and at the path of each leaf the value of the function on the leaf and on what the others have at this path. -/
theorem c80_map_with_path_iff (f : List KeyEntry → Tree α → List (Tree α) → Py (Tree α)) (t : Tree α) (ht : TreeOk fields t) (rests : List (Tree α))
    (hr : ∀ r ∈ rests, TreeOk fields r) (t' : Tree α) :
    treeMapWithPath isJpeg isLeaf fields f t rests = .ok t' ↔
      (∀ r ∈ rests, Covers isJpeg (isLeafNode isJpeg isLeaf) fields t r) ∧ SameShape (isLeafNode isJpeg isLeaf) t t' ∧
      ∀ q ∈ leavesWithPath isJpeg isLeaf fields t, ∃ args y, rests.map (fun r => keyGet fields r q.1) = args.map .ok ∧ f q.1 q.2 args = .ok y ∧
        keyGet fields t' q.1 = .ok y := by
  have hr' := (treesOk_iff fields rests).2 hr
  unfold treeMapWithPath flattenWithPath leavesWithPath
  simp only
  have hlen : (keyPaths isJpeg isLeaf fields [] t).length = (treeIter isJpeg isLeaf t).length := by
    rw [← keyPaths_leaves isJpeg isLeaf fields t ht]; simp
  generalize hps : keyPaths isJpeg isLeaf fields [] t = ps at *
  constructor
  · intro h
    cases hc : flattenAll isJpeg (flattenW isJpeg isLeaf t).2 rests with
    | error e => rw [hc] at h; cases h
    | ok cols =>
      rw [hc] at h
      simp only at h
      obtain ⟨k1, k2⟩ := (flattenAll_iff isJpeg isLeaf fields t ht rests hr' cols).1 hc
      rw [hps] at k2
      obtain ⟨argss, g1, g2, g3⟩ := rows_zip (fun r (q : List KeyEntry × Tree α) => keyGet fields r q.1) ps rests cols k2 ps rfl
      rw [g2] at h
      cases hm : mapPy (fun a => f a.1.1 a.1.2 a.2) (ps.zip argss) with
      | error e => rw [hm] at h; cases h
      | ok ys =>
        rw [hm] at h
        simp only at h
        rw [mapPy_ok_iff] at hm
        have hyl : ys.length = ps.length := by
          have := congrArg List.length hm
          simp at this
          omega
        obtain ⟨t'', u1, u2, u3⟩ := unflatten_fill isJpeg isLeaf fields t ht ys (by omega)
        rw [u1] at h
        cases h
        refine ⟨k1, u2, ?_⟩
        rw [hps] at u3
        intro q hq
        obtain ⟨i, hi, rfl⟩ := List.getElem_of_mem hq
        have hi2 : i < argss.length := by omega
        have hi3 : i < ys.length := by omega
        refine ⟨argss[i], ys[i], ?_, ?_, ?_⟩
        · have := congrArg (fun l => l[i]?) g3
          simpa [hi, hi2] using this
        · have := congrArg (fun l => l[i]?) hm
          have hz : i < (ps.zip argss).length := by simp; omega
          simp only [List.getElem?_map, List.getElem?_eq_getElem hz, List.getElem?_eq_getElem hi3, Option.map_some, Option.some.injEq, List.getElem_zip] at this
          exact this
        · have := congrArg (fun l => l[i]?) u3
          simpa [hi, hi3] using this
  · rintro ⟨k1, k2, k3⟩
    obtain ⟨cols, hc⟩ : ∃ cols : List (List (Tree α)), cols.map (fun c => c.map Except.ok) = rests.map (fun r => ps.map (fun q => keyGet fields r q.1)) := by
      have : ∀ rests' : List (Tree α), (∀ r ∈ rests', r ∈ rests) →
          ∃ cols : List (List (Tree α)), cols.map (fun c => c.map Except.ok) = rests'.map (fun r => ps.map (fun q => keyGet fields r q.1)) := by
        intro rests'
        induction rests' with
        | nil => intro _; exact ⟨[], rfl⟩
        | cons r rests' ih =>
          intro hsub
          obtain ⟨cols, hcols⟩ := ih (fun x hx => hsub x (by simp [hx]))
          obtain ⟨c, hc⟩ := all_ok (fun q : List KeyEntry × Tree α => keyGet fields r q.1) ps (by
            intro q hq
            obtain ⟨args, y, h1, _⟩ := k3 q hq
            have : keyGet fields r q.1 ∈ args.map (Except.ok (ε := Err)) := by
              rw [← h1]
              exact List.mem_map.2 ⟨r, hsub r (by simp), rfl⟩
            obtain ⟨a, _, ha⟩ := List.mem_map.1 this
            exact ⟨a, ha.symm⟩)
          exact ⟨c :: cols, by simp only [List.map_cons, hcols, hc]⟩
      exact this rests (fun _ h => h)
    rw [(flattenAll_iff isJpeg isLeaf fields t ht rests hr' cols).2 ⟨k1, by rw [hps]; exact hc⟩]
    simp only
    obtain ⟨argss, g1, g2, g3⟩ := rows_zip (fun r (q : List KeyEntry × Tree α) => keyGet fields r q.1) ps rests cols hc ps rfl
    obtain ⟨ys, hys⟩ := all_ok (fun q : List KeyEntry × Tree α => keyGet fields t' q.1) ps (fun q hq => by
      obtain ⟨_, y, _, _, h⟩ := k3 q hq
      exact ⟨y, h⟩)
    have hyl : ys.length = ps.length := by
      have := congrArg List.length hys
      simp at this
      omega
    have hm : mapPy (fun a => f a.1.1 a.1.2 a.2) (rows ps cols) = .ok ys := by
      rw [g2, mapPy_ok_iff]
      apply List.ext_getElem
      · simp; omega
      · intro i h1 h2
        simp only [List.length_map, List.length_zip] at h1 h2
        have hi : i < ps.length := by omega
        have hi2 : i < argss.length := by omega
        obtain ⟨args, y, e1, e2, e3⟩ := k3 ps[i] (List.getElem_mem hi)
        have q1 := congrArg (fun l => l[i]?) g3
        have q2 := congrArg (fun l => l[i]?) hys
        simp only [List.getElem?_map, List.getElem?_eq_getElem hi, List.getElem?_eq_getElem hi2, List.getElem?_eq_getElem h2, Option.map_some,
          Option.some.injEq] at q1 q2
        rw [e1] at q1
        rw [e3] at q2
        cases q2
        have q1 := map_ok_inj q1
        simp only [List.getElem_map, List.getElem_zip]
        rw [← q1]
        exact e2
    rw [hm]
    obtain ⟨t'', u1, u2, u3⟩ := unflatten_fill isJpeg isLeaf fields t ht ys (by omega)
    simp only [u1, Except.ok.injEq]
    apply shape_unique isJpeg isLeaf fields t ht t'' t' u2 k2
    rw [u3, hps, hys]

/-- `tree_map` is `tree_map_with_path` with a function that does not use the path. -/
theorem treeMap_eq (f : Tree α → List (Tree α) → Py (Tree α)) (t : Tree α) (ht : TreeOk fields t) (rests : List (Tree α)) :
    treeMap isJpeg isLeaf f t rests = treeMapWithPath isJpeg isLeaf fields (fun _ => f) t rests := by
  unfold treeMap treeMapWithPath flattenWithPath
  simp only
  rw [flattenW_leaves, ← keyPaths_leaves isJpeg isLeaf fields t ht]
  cases flattenAll isJpeg (flattenW isJpeg isLeaf t).2 rests with
  | error e => rfl
  | ok cols =>
    simp only
    rw [rows_map, mapPy_map]

/-- **C80, mapping.** -/
theorem c80_map_iff (f : Tree α → List (Tree α) → Py (Tree α)) (t : Tree α) (ht : TreeOk fields t) (rests : List (Tree α))
    (hr : ∀ r ∈ rests, TreeOk fields r) (t' : Tree α) :
    treeMap isJpeg isLeaf f t rests = .ok t' ↔
      (∀ r ∈ rests, Covers isJpeg (isLeafNode isJpeg isLeaf) fields t r) ∧ SameShape (isLeafNode isJpeg isLeaf) t t' ∧
      ∀ q ∈ leavesWithPath isJpeg isLeaf fields t, ∃ args y, rests.map (fun r => keyGet fields r q.1) = args.map .ok ∧ f q.2 args = .ok y ∧
        keyGet fields t' q.1 = .ok y := by
  rw [treeMap_eq isJpeg isLeaf fields f t ht rests]
  exact c80_map_with_path_iff isJpeg isLeaf fields _ t ht rests hr t'

end

end LitData.Props
