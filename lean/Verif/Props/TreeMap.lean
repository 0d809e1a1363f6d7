import Verif.Lemmas.TreeMap

/-! Property C80: functions over nested samples. -/

namespace LitData.Props
open LitData Spec

section
variable {α : Type} (isJpeg : α → Bool) (isLeaf : Tree α → Bool) (fields : String → List String)

mutual
theorem keyPaths_pre (pre : List KeyEntry) (t : Tree α) :
    keyPaths isJpeg isLeaf fields pre t = (keyPaths isJpeg isLeaf fields [] t).map (fun q => (pre ++ q.1, q.2)) := by
  match t with
  | .leaf a => simp [keyPaths]
  | .node h cs =>
    simp only [keyPaths]
    split
    · simp
    · exact keyPathsList_pre pre _ cs

theorem keyPathsList_pre (pre : List KeyEntry) (es : List KeyEntry) (cs : List (Tree α)) :
    keyPathsList isJpeg isLeaf fields pre es cs = (keyPathsList isJpeg isLeaf fields [] es cs).map (fun q => (pre ++ q.1, q.2)) := by
  match es, cs with
  | [], cs => cases cs <;> simp [keyPathsList]
  | e :: es, [] => simp [keyPathsList]
  | e :: es, c :: cs =>
    simp only [keyPathsList, List.nil_append, List.map_append]
    rw [keyPaths_pre (pre ++ [e]) c, keyPaths_pre [e] c, keyPathsList_pre pre es cs]
    simp [List.map_map, Function.comp_def]
end

theorem keyPathsList_cons (e : KeyEntry) (es : List KeyEntry) (c : Tree α) (cs : List (Tree α)) :
    keyPathsList isJpeg isLeaf fields [] (e :: es) (c :: cs) =
      (keyPaths isJpeg isLeaf fields [] c).map (fun q => (e :: q.1, q.2)) ++ keyPathsList isJpeg isLeaf fields [] es cs := by
  simp only [keyPathsList, List.nil_append]
  rw [keyPaths_pre isJpeg isLeaf fields [e] c]
  rfl

mutual
theorem flattenW_leaves (t : Tree α) : (flattenW isJpeg isLeaf t).1 = treeIter isJpeg isLeaf t := by
  match t with
  | .leaf a => simp [flattenW, treeIter]
  | .node h cs =>
    simp only [flattenW, treeIter]
    split
    · rfl
    · exact flattenWList_leaves cs

theorem flattenWList_leaves (cs : List (Tree α)) : (flattenWList isJpeg isLeaf cs).1 = treeIterList isJpeg isLeaf cs := by
  match cs with
  | [] => simp [flattenWList, treeIterList]
  | c :: cs => simp only [flattenWList, treeIterList]; rw [flattenW_leaves c, flattenWList_leaves cs]
end

mutual
theorem keyPaths_leaves (t : Tree α) (ht : TreeOk fields t) : (keyPaths isJpeg isLeaf fields [] t).map (·.2) = treeIter isJpeg isLeaf t := by
  match t with
  | .leaf a => simp [keyPaths, treeIter]
  | .node h cs =>
    simp only [TreeOk] at ht
    simp only [keyPaths, treeIter]
    split
    · rfl
    · exact keyPathsList_leaves _ cs (entries_self fields h cs ht.1 ht.2.1).2 ht.2.2

theorem keyPathsList_leaves (es : List KeyEntry) (cs : List (Tree α)) (hl : es.length = cs.length) (ht : TreesOk fields cs) :
    (keyPathsList isJpeg isLeaf fields [] es cs).map (·.2) = treeIterList isJpeg isLeaf cs := by
  match es, cs with
  | [], [] => simp [keyPathsList, treeIterList]
  | e :: es, [] => simp at hl
  | [], c :: cs => simp at hl
  | e :: es, c :: cs =>
    simp only [TreesOk] at ht
    rw [keyPathsList_cons, List.map_append, List.map_map]
    simp only [treeIterList]
    rw [← keyPaths_leaves c ht.1, ← keyPathsList_leaves es cs (by simpa using hl) ht.2]
    rfl
end

mutual
theorem flattenW_num (t : Tree α) : (flattenW isJpeg isLeaf t).2.numLeaves = (flattenW isJpeg isLeaf t).1.length := by
  match t with
  | .leaf a => simp [flattenW, TSpec.numLeaves]
  | .node h cs =>
    simp only [flattenW]
    split
    · simp [TSpec.numLeaves]
    · simp only [TSpec.numLeaves]; exact flattenWList_num cs

theorem flattenWList_num (cs : List (Tree α)) : numLeavesList (flattenWList isJpeg isLeaf cs).2 = (flattenWList isJpeg isLeaf cs).1.length := by
  match cs with
  | [] => simp [flattenWList, numLeavesList]
  | c :: cs => simp only [flattenWList, numLeavesList, List.length_append]; rw [flattenW_num c, flattenWList_num cs]
end

theorem flattenWList_len (cs : List (Tree α)) : (flattenWList isJpeg isLeaf cs).2.length = cs.length := by
  induction cs with
  | nil => simp [flattenWList]
  | cons c cs ih => simp [flattenWList, ih]

theorem dictGet_mem {β : Type} (k : Key) (ks : List Key) (vs : List β) (v : β) (h : dictGet k ks vs = some v) : v ∈ vs := by
  induction ks generalizing vs with
  | nil => cases vs <;> simp [dictGet] at h
  | cons a ks ih =>
    cases vs with
    | nil => simp [dictGet] at h
    | cons w vs =>
      unfold dictGet at h
      split at h
      · cases h; simp
      · exact List.mem_cons_of_mem _ (ih vs h)

theorem fieldGet_mem {β : Type} (k : String) (ks : List String) (vs : List β) (v : β) (h : fieldGet k ks vs = some v) : v ∈ vs := by
  induction ks generalizing vs with
  | nil => cases vs <;> simp [fieldGet] at h
  | cons a ks ih =>
    cases vs with
    | nil => simp [fieldGet] at h
    | cons w vs =>
      unfold fieldGet at h
      split at h
      · cases h; simp
      · exact List.mem_cons_of_mem _ (ih vs h)

theorem get_mem (e : KeyEntry) (h : Head) (ts : List (Tree α)) (u : Tree α) (hg : e.get fields (.node h ts) = .ok u) : u ∈ ts := by
  cases e with
  | attr n =>
    cases h with
    | named c a =>
      simp only [KeyEntry.get] at hg
      cases hf : fieldGet n (fields c) ts with
      | none => rw [hf] at hg; cases hg
      | some v => rw [hf] at hg; cases hg; exact fieldGet_mem _ _ _ _ hf
    | _ => simp [KeyEntry.get] at hg
  | seq i =>
    simp only [KeyEntry.get] at hg
    cases hd : h.dictKeys with
    | none =>
      rw [hd] at hg
      simp only at hg
      cases hi : ts[i]? with
      | none => rw [hi] at hg; cases hg
      | some v => rw [hi] at hg; cases hg; exact List.mem_of_getElem? hi
    | some ks =>
      rw [hd] at hg
      simp only at hg
      cases hi : dictGet (.atom (.int i)) ks ts with
      | none => rw [hi] at hg; cases hg
      | some v => rw [hi] at hg; cases hg; exact dictGet_mem _ _ _ _ hi
  | map k =>
    simp only [KeyEntry.get] at hg
    cases hd : h.dictKeys with
    | none => rw [hd] at hg; cases hg
    | some ks =>
      rw [hd] at hg
      simp only at hg
      cases hi : dictGet k ks ts with
      | none => rw [hi] at hg; cases hg
      | some v => rw [hi] at hg; cases hg; exact dictGet_mem _ _ _ _ hi

theorem treesOk_iff (cs : List (Tree α)) : TreesOk fields cs ↔ ∀ c ∈ cs, TreeOk fields c := by
  induction cs with
  | nil => simp [TreesOk]
  | cons c cs ih => simp [TreesOk, ih]

mutual
/-- Flattening `r` up to the structure of `t`: when it works, and what it gives. -/
theorem upTo_iff (t : Tree α) (ht : TreeOk fields t) (r : Tree α) (hr : TreeOk fields r) (subs : List (Tree α)) :
    flattenUpTo isJpeg (flattenW isJpeg isLeaf t).2 r = .ok subs ↔
      Covers isJpeg (isLeafNode isJpeg isLeaf) fields t r ∧ (keyPaths isJpeg isLeaf fields [] t).map (fun q => keyGet fields r q.1) = subs.map .ok := by
  have hone : ([Except.ok (ε := Err) r] = subs.map .ok) ↔ [r] = subs := by
    constructor
    · intro h; exact map_ok_inj (a := [r]) h
    · rintro rfl; rfl
  match t with
  | .leaf a =>
    simp only [flattenW, flattenUpTo, Covers, keyPaths, List.map_cons, List.map_nil, keyGet, true_and, hone, Except.ok.injEq]
  | .node h cs =>
    simp only [TreeOk] at ht
    simp only [flattenW, Covers, keyPaths]
    by_cases hL : isLeafNode isJpeg isLeaf (.node h cs) = true
    · simp only [hL, if_true, flattenUpTo, true_or, true_and, List.map_cons, List.map_nil, keyGet, hone, Except.ok.injEq]
    · simp only [hL, if_false, false_or, Bool.false_eq_true]
      cases r with
      | leaf b => simp [flattenUpTo]
      | node h' ts =>
        simp only [TreeOk] at hr
        simp only [flattenUpTo, flattenWList_len]
        cases hj : isJpegArray isJpeg h' ts with
        | true => simp [hj]
        | false =>
          simp only [Bool.false_eq_true, if_false]
          obtain ⟨he1, he2⟩ := entries_self fields h cs ht.1 ht.2.1
          constructor
          · intro hk
            cases hc : childrenFor h cs.length h' ts with
            | error e => rw [hc] at hk; cases hk
            | ok us =>
              rw [hc] at hk
              simp only at hk
              obtain ⟨g1, g2, g3⟩ := (childrenFor_iff fields h h' cs.length ts us ht.1 hr.1 hr.2.1).1 hc
              have hus : TreesOk fields us := by
                rw [treesOk_iff]
                intro u hu
                have : Except.ok u ∈ us.map (Except.ok (ε := Err)) := List.mem_map.2 ⟨u, hu, rfl⟩
                rw [← g3] at this
                obtain ⟨e, _, he⟩ := List.mem_map.1 this
                exact (treesOk_iff fields ts).1 hr.2.2 u (get_mem fields e h' ts u he)
              have hul : us.length = cs.length := by
                have := congrArg List.length g3
                simp only [List.length_map] at this
                omega
              obtain ⟨k1, k2⟩ := (upToList_iff cs ht.2.2 _ (.node h' ts) us hus he2 hul g3 subs).1 hk
              exact ⟨⟨h', ts, rfl, hj, g1, g2, k1⟩, k2⟩
          · rintro ⟨⟨h'', ts', e, _, g1, g2, k1⟩, k2⟩
            cases e
            have hex : ∀ (es : List KeyEntry) (ds : List (Tree α)), es.length = ds.length → CoversList isJpeg (isLeafNode isJpeg isLeaf) fields es ds (.node h' ts) →
                ∃ us : List (Tree α), es.map (fun e => e.get fields (.node h' ts)) = us.map .ok := by
              intro es
              induction es with
              | nil => intro _ _ _; exact ⟨[], rfl⟩
              | cons e es ih =>
                intro ds hl hc
                cases ds with
                | nil => simp at hl
                | cons d ds =>
                  simp only [CoversList] at hc
                  obtain ⟨⟨u, hu, _⟩, hc⟩ := hc
                  obtain ⟨us, hus⟩ := ih ds (by simpa using hl) hc
                  exact ⟨u :: us, by simp only [List.map_cons, hu, hus]⟩
            obtain ⟨us, g3⟩ := hex _ cs he2 k1
            rw [(childrenFor_iff fields h h' cs.length ts us ht.1 hr.1 hr.2.1).2 ⟨g1, g2, g3⟩]
            simp only
            have hus : TreesOk fields us := by
              rw [treesOk_iff]
              intro u hu
              have : Except.ok u ∈ us.map (Except.ok (ε := Err)) := List.mem_map.2 ⟨u, hu, rfl⟩
              rw [← g3] at this
              obtain ⟨e, _, he⟩ := List.mem_map.1 this
              exact (treesOk_iff fields ts).1 hr.2.2 u (get_mem fields e h' ts u he)
            have hul : us.length = cs.length := by
              have := congrArg List.length g3
              simp only [List.length_map] at this
              omega
            exact (upToList_iff cs ht.2.2 _ (.node h' ts) us hus he2 hul g3 subs).2 ⟨k1, k2⟩

theorem upToList_iff (cs : List (Tree α)) (ht : TreesOk fields cs) (es : List KeyEntry) (r : Tree α) (us : List (Tree α)) (hus : TreesOk fields us)
    (hes : es.length = cs.length) (hul : us.length = cs.length) (hget : es.map (fun e => e.get fields r) = us.map .ok) (subs : List (Tree α)) :
    flattenUpToList isJpeg (flattenWList isJpeg isLeaf cs).2 us = .ok subs ↔
      CoversList isJpeg (isLeafNode isJpeg isLeaf) fields es cs r ∧
        (keyPathsList isJpeg isLeaf fields [] es cs).map (fun q => keyGet fields r q.1) = subs.map .ok := by
  match cs, es, us with
  | [], [], [] =>
    simp only [flattenWList, flattenUpToList, CoversList, keyPathsList, List.map_nil, true_and, Except.ok.injEq]
    cases subs <;> simp
  | [], _ :: _, _ => simp at hes
  | [], _, _ :: _ => simp at hul
  | c :: cs, [], _ => simp at hes
  | c :: cs, _, [] => simp at hul
  | c :: cs, e :: es, u :: us =>
    simp only [TreesOk] at ht hus
    simp only [List.map_cons, List.cons.injEq] at hget
    simp only [List.length_cons, Nat.add_right_cancel_iff] at hes hul
    have i1 := upTo_iff c ht.1 u hus.1
    have i2 := upToList_iff cs ht.2 es r us hus.2 hes hul hget.2
    rw [keyPathsList_cons, List.map_append, List.map_map]
    have hfun : (fun q : List KeyEntry × Tree α => keyGet fields r q.1) ∘ (fun q : List KeyEntry × Tree α => (e :: q.1, q.2)) = fun q => keyGet fields u q.1 := by
      funext q
      simp only [Function.comp, keyGet, hget.1]
    rw [hfun]
    simp only [flattenWList, flattenUpToList, CoversList]
    constructor
    · intro hk
      cases ha : flattenUpTo isJpeg (flattenW isJpeg isLeaf c).2 u with
      | error e => rw [ha] at hk; cases hk
      | ok a =>
        rw [ha] at hk
        simp only at hk
        cases hb : flattenUpToList isJpeg (flattenWList isJpeg isLeaf cs).2 us with
        | error e => rw [hb] at hk; cases hk
        | ok b =>
          rw [hb] at hk
          cases hk
          obtain ⟨a1, a2⟩ := (i1 a).1 ha
          obtain ⟨b1, b2⟩ := (i2 b).1 hb
          exact ⟨⟨⟨u, hget.1, a1⟩, b1⟩, by rw [List.map_append, a2, b2]⟩
    · rintro ⟨⟨⟨u', hu', k1⟩, k2⟩, k3⟩
      have hu : u' = u := by rw [hget.1] at hu'; cases hu'; rfl
      subst hu
      generalize hA : (keyPaths isJpeg isLeaf fields [] c).map (fun q => keyGet fields u' q.1) = A at k3
      generalize hB : (keyPathsList isJpeg isLeaf fields [] es cs).map (fun q => keyGet fields r q.1) = B at k3
      have hA' : A = (subs.take A.length).map .ok := by rw [List.map_take, ← k3, List.take_left]
      have hB' : B = (subs.drop A.length).map .ok := by rw [List.map_drop, ← k3, List.drop_left]
      rw [(i1 (subs.take A.length)).2 ⟨k1, by rw [hA]; exact hA'⟩]
      simp only
      rw [(i2 (subs.drop A.length)).2 ⟨k2, by rw [hB]; exact hB'⟩]
      simp only [List.take_append_drop]
end

mutual
/-- Rebuilding from other leaves: the containers stay, and the leaves are where their paths lead. -/
theorem unflatten_fill (t : Tree α) (ht : TreeOk fields t) (ys : List (Tree α)) (hl : ys.length = (treeIter isJpeg isLeaf t).length) :
    ∃ t', unflatten (flattenW isJpeg isLeaf t).2 ys = .ok t' ∧ SameShape (isLeafNode isJpeg isLeaf) t t' ∧
      (keyPaths isJpeg isLeaf fields [] t).map (fun q => keyGet fields t' q.1) = ys.map .ok := by
  have hone : ∀ ys : List (Tree α), ys.length = 1 → ∃ y, ys = [y] := by
    intro ys h
    match ys, h with
    | [y], _ => exact ⟨y, rfl⟩
  match t with
  | .leaf a =>
    simp only [treeIter, List.length_singleton] at hl
    obtain ⟨y, rfl⟩ := hone ys hl
    exact ⟨y, by simp [flattenW, unflatten], by simp [SameShape], by simp [keyPaths, keyGet]⟩
  | .node h cs =>
    simp only [TreeOk] at ht
    simp only [flattenW, treeIter, SameShape, keyPaths] at hl ⊢
    by_cases hL : isLeafNode isJpeg isLeaf (.node h cs) = true
    · simp only [hL, if_true, List.length_singleton] at hl ⊢
      obtain ⟨y, rfl⟩ := hone ys hl
      exact ⟨y, by simp [unflatten], by simp, by simp [keyGet]⟩
    · simp only [hL, if_false, Bool.false_eq_true, false_or] at hl ⊢
      obtain ⟨ts, h1, h2, h3, h4⟩ := unflattenList_fill cs ht.2.2 ys hl
      refine ⟨.node h ts, ?_, ⟨ts, rfl, h2⟩, ?_⟩
      · simp only [unflatten]
        rw [flattenWList_num, flattenWList_leaves, if_neg (by omega), h1]
        exact build_ok h ts (by rw [h3]; exact ht.1)
      · have he := entries_self fields h ts (by rw [h3]; exact ht.1) ht.2.1
        rw [h3] at he
        exact h4 _ (.node h ts) he.2 he.1

theorem unflattenList_fill (cs : List (Tree α)) (ht : TreesOk fields cs) (ys : List (Tree α)) (hl : ys.length = (treeIterList isJpeg isLeaf cs).length) :
    ∃ ts, unflattenList (flattenWList isJpeg isLeaf cs).2 ys = .ok ts ∧ SameShapes (isLeafNode isJpeg isLeaf) cs ts ∧ ts.length = cs.length ∧
      ∀ (es : List KeyEntry) (r : Tree α), es.length = cs.length → es.map (fun e => e.get fields r) = ts.map .ok →
        (keyPathsList isJpeg isLeaf fields [] es cs).map (fun q => keyGet fields r q.1) = ys.map .ok := by
  match cs with
  | [] =>
    simp only [treeIterList, List.length_nil, List.length_eq_zero_iff] at hl
    subst hl
    refine ⟨[], by simp [flattenWList, unflattenList], by simp [SameShapes], rfl, ?_⟩
    intro es r h1 _
    cases es with
    | nil => simp [keyPathsList]
    | cons e es => simp at h1
  | c :: cs =>
    simp only [TreesOk] at ht
    simp only [treeIterList, List.length_append] at hl
    have hn : (flattenW isJpeg isLeaf c).2.numLeaves = (treeIter isJpeg isLeaf c).length := by rw [flattenW_num, flattenW_leaves]
    obtain ⟨t', a1, a2, a3⟩ := unflatten_fill c ht.1 (ys.take (treeIter isJpeg isLeaf c).length) (by simp; omega)
    obtain ⟨ts, b1, b2, b3, b4⟩ := unflattenList_fill cs ht.2 (ys.drop (treeIter isJpeg isLeaf c).length) (by simp; omega)
    refine ⟨t' :: ts, ?_, ?_, by simp [b3], ?_⟩
    · simp only [flattenWList, unflattenList, hn, a1, b1]
    · exact ⟨t', ts, rfl, a2, b2⟩
    · intro es r h1 h2
      cases es with
      | nil => simp at h1
      | cons e es =>
        simp only [List.map_cons, List.cons.injEq] at h2
        rw [keyPathsList_cons, List.map_append, List.map_map]
        have hfun : (fun q : List KeyEntry × Tree α => keyGet fields r q.1) ∘ (fun q : List KeyEntry × Tree α => (e :: q.1, q.2)) = fun q => keyGet fields t' q.1 := by
          funext q
          simp only [Function.comp, keyGet, h2.1]
        rw [hfun, a3, b4 es r (by simpa using h1) h2.2, ← List.map_append, List.take_append_drop]
end

mutual
/-- A sample is determined by its containers and what is at the paths of the leaves. -/
theorem shape_unique (t : Tree α) (ht : TreeOk fields t) (a b : Tree α) (ha : SameShape (isLeafNode isJpeg isLeaf) t a)
    (hb : SameShape (isLeafNode isJpeg isLeaf) t b)
    (h : (keyPaths isJpeg isLeaf fields [] t).map (fun q => keyGet fields a q.1) = (keyPaths isJpeg isLeaf fields [] t).map (fun q => keyGet fields b q.1)) :
    a = b := by
  match t with
  | .leaf x =>
    simp only [keyPaths, List.map_cons, List.map_nil, keyGet, List.cons.injEq, Except.ok.injEq, and_true] at h
    exact h
  | .node hd cs =>
    simp only [TreeOk] at ht
    simp only [SameShape, keyPaths] at ha hb h
    by_cases hL : isLeafNode isJpeg isLeaf (.node hd cs) = true
    · simp only [hL, if_true, List.map_cons, List.map_nil, keyGet, List.cons.injEq, Except.ok.injEq, and_true] at h
      exact h
    · simp only [hL, if_false, Bool.false_eq_true, false_or] at ha hb h
      obtain ⟨as, rfl, ha⟩ := ha
      obtain ⟨bs, rfl, hb⟩ := hb
      have la := shapes_length cs as ha
      have lb := shapes_length cs bs hb
      have ea := entries_self fields hd as (by rw [la]; exact ht.1) ht.2.1
      have eb := entries_self fields hd bs (by rw [lb]; exact ht.1) ht.2.1
      rw [la] at ea
      rw [lb] at eb
      rw [shapes_unique cs ht.2.2 as bs ha hb _ _ _ ea.2 ea.1 eb.1 h]

theorem shapes_unique (cs : List (Tree α)) (ht : TreesOk fields cs) (as bs : List (Tree α)) (ha : SameShapes (isLeafNode isJpeg isLeaf) cs as)
    (hb : SameShapes (isLeafNode isJpeg isLeaf) cs bs) (es : List KeyEntry) (r s : Tree α) (hl : es.length = cs.length)
    (hr : es.map (fun e => e.get fields r) = as.map .ok) (hs : es.map (fun e => e.get fields s) = bs.map .ok)
    (h : (keyPathsList isJpeg isLeaf fields [] es cs).map (fun q => keyGet fields r q.1) =
      (keyPathsList isJpeg isLeaf fields [] es cs).map (fun q => keyGet fields s q.1)) : as = bs := by
  match cs with
  | [] =>
    simp only [SameShapes] at ha hb
    rw [ha, hb]
  | c :: cs =>
    simp only [TreesOk] at ht
    simp only [SameShapes] at ha hb
    obtain ⟨a, as', rfl, a1, a2⟩ := ha
    obtain ⟨b, bs', rfl, b1, b2⟩ := hb
    cases es with
    | nil => simp at hl
    | cons e es =>
      simp only [List.map_cons, List.cons.injEq] at hr hs
      rw [keyPathsList_cons, List.map_append, List.map_append, List.map_map, List.map_map] at h
      have hfr : (fun q : List KeyEntry × Tree α => keyGet fields r q.1) ∘ (fun q : List KeyEntry × Tree α => (e :: q.1, q.2)) = fun q => keyGet fields a q.1 := by
        funext q; simp only [Function.comp, keyGet, hr.1]
      have hfs : (fun q : List KeyEntry × Tree α => keyGet fields s q.1) ∘ (fun q : List KeyEntry × Tree α => (e :: q.1, q.2)) = fun q => keyGet fields b q.1 := by
        funext q; simp only [Function.comp, keyGet, hs.1]
      rw [hfr, hfs] at h
      have := List.append_inj h (by simp)
      rw [shape_unique c ht.1 a b a1 b1 this.1, shapes_unique cs ht.2 as' bs' a2 b2 es r s (by simpa using hl) hr.2 hs.2 this.2]

theorem shapes_length (cs as : List (Tree α)) (h : SameShapes (isLeafNode isJpeg isLeaf) cs as) : as.length = cs.length := by
  match cs with
  | [] => simp only [SameShapes] at h; simp [h]
  | c :: cs =>
    simp only [SameShapes] at h
    obtain ⟨d, ds, rfl, _, h⟩ := h
    simp [shapes_length cs ds h]
end

end

end LitData.Props
