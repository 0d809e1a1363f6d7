import Verif.Spec.TreeMap

/-! Lemmas on functions over nested samples. -/

namespace LitData
open Spec

theorem map_ok_inj {β : Type} {a b : List β} (h : a.map (Except.ok (ε := Err)) = b.map .ok) : a = b := by
  induction a generalizing b with
  | nil => cases b <;> simp_all
  | cons x a ih =>
    cases b with
    | nil => simp at h
    | cons y b => simp only [List.map_cons, List.cons.injEq, Except.ok.injEq] at h; rw [h.1, ih h.2]

theorem map_some_inj {β : Type} {a b : List β} (h : a.map some = b.map some) : a = b := by
  induction a generalizing b with
  | nil => cases b <;> simp_all
  | cons x a ih =>
    cases b with
    | nil => simp at h
    | cons y b => simp only [List.map_cons, List.cons.injEq, Option.some.injEq] at h; rw [h.1, ih h.2]

theorem nodup_len_le {β : Type} [DecidableEq β] : ∀ {l m : List β}, l.Nodup → (∀ x ∈ l, x ∈ m) → l.length ≤ m.length
  | [], _, _, _ => by simp
  | a :: l, m, hnd, hsub => by
    rw [List.nodup_cons] at hnd
    have ha : a ∈ m := hsub a (by simp)
    have hp := (List.perm_cons_erase ha).length_eq
    have := nodup_len_le (l := l) (m := m.erase a) hnd.2 (by
      intro x hx
      exact (List.mem_erase_of_ne (by rintro rfl; exact hnd.1 hx)).2 (hsub x (by simp [hx])))
    simp only [List.length_cons] at hp ⊢
    omega

theorem nodup_subset_back {β : Type} [DecidableEq β] {l m : List β} (hl : l.Nodup) (hsub : ∀ x ∈ l, x ∈ m) (hlen : l.length = m.length) :
    ∀ x ∈ m, x ∈ l := by
  intro x hx
  apply Classical.byContradiction
  intro hn
  have hp := (List.perm_cons_erase hx).length_eq
  have := nodup_len_le (l := l) (m := m.erase x) hl (by
    intro y hy
    exact (List.mem_erase_of_ne (by rintro rfl; exact hn hy)).2 (hsub y hy))
  simp only [List.length_cons] at hp
  omega

theorem dictGet_isSome {β : Type} (k : Key) (ks : List Key) (vs : List β) (hl : ks.length = vs.length) :
    (dictGet k ks vs).isSome ↔ k.norm ∈ ks.map Key.norm := by
  induction ks generalizing vs with
  | nil => simp [dictGet]
  | cons k' ks ih =>
    cases vs with
    | nil => simp at hl
    | cons v vs =>
      unfold dictGet
      by_cases h : k'.norm = k.norm
      · simp [h]
      · rw [if_neg h, ih vs (by simpa using hl)]
        simp only [List.map_cons, List.mem_cons]
        constructor
        · exact .inr
        · rintro (h' | h')
          · exact absurd h'.symm h
          · exact h'

/-- Each key gives its own value. -/
theorem dictGet_self {β : Type} (ks : List Key) (vs : List β) (hl : ks.length = vs.length) (hn : (ks.map Key.norm).Nodup) :
    ks.map (fun k => dictGet k ks vs) = vs.map some := by
  induction ks generalizing vs with
  | nil => cases vs <;> simp_all
  | cons k ks ih =>
    cases vs with
    | nil => simp at hl
    | cons v vs =>
      simp only [List.map_cons, List.nodup_cons] at hn
      simp only [List.map_cons, dictGet, if_true]
      congr 1
      rw [← ih vs (by simpa using hl) hn.2]
      apply List.map_congr_left
      intro k' hk'
      rw [if_neg]
      intro h
      exact hn.1 (by rw [h]; exact List.mem_map_of_mem hk')

theorem dictGet_norm {β : Type} (k k' : Key) (h : k.norm = k'.norm) (ks : List Key) (vs : List β) : dictGet k ks vs = dictGet k' ks vs := by
  induction ks generalizing vs with
  | nil => cases vs <;> rfl
  | cons a ks ih =>
    cases vs with
    | nil => rfl
    | cons v vs => simp only [dictGet, h, ih vs]

theorem dictGetAll_iff {β : Type} (ks' : List Key) (ts : List β) (ks : List Key) (us : List β) :
    dictGetAll ks' ts ks = .ok us ↔ ks.map (fun k => dictGet k ks' ts) = us.map some := by
  induction ks generalizing us with
  | nil => cases us <;> simp [dictGetAll]
  | cons k ks ih =>
    unfold dictGetAll
    cases hg : dictGet k ks' ts with
    | none => cases us <;> simp [hg]
    | some v =>
      simp only [List.map_cons, hg]
      cases hr : dictGetAll ks' ts ks with
      | error e =>
        simp only [reduceCtorEq, false_iff]
        cases us with
        | nil => simp
        | cons u us =>
          simp only [List.map_cons, List.cons.injEq, not_and]
          intro _ h
          rw [(ih us).2 h] at hr
          cases hr
      | ok r =>
        have h1 := (ih r).1 hr
        simp only [Except.ok.injEq]
        cases us with
        | nil => simp
        | cons u us =>
          simp only [List.cons.injEq, List.map_cons, Option.some.injEq]
          rw [h1]
          exact ⟨fun h => ⟨h.1, by rw [h.2]⟩, fun h => ⟨h.1, map_some_inj h.2⟩⟩

theorem fieldGet_self {β : Type} (ns : List String) (vs : List β) (hl : ns.length = vs.length) (hn : ns.Nodup) :
    ns.map (fun n => fieldGet n ns vs) = vs.map some := by
  induction ns generalizing vs with
  | nil => cases vs <;> simp_all
  | cons n ns ih =>
    cases vs with
    | nil => simp at hl
    | cons v vs =>
      simp only [List.nodup_cons] at hn
      simp only [List.map_cons, fieldGet, if_true]
      congr 1
      rw [← ih vs (by simpa using hl) hn.2]
      apply List.map_congr_left
      intro k' hk'
      rw [if_neg]
      rintro rfl
      exact hn.1 hk'

theorem range_get {β : Type} (vs : List β) : (List.range vs.length).map (fun i => vs[i]?) = vs.map some := by
  apply List.ext_getElem
  · simp
  · intro i h1 h2
    simp at h1
    simp [h1]

/-- What the keys of a container give in another container of the same type. -/
theorem childrenFor_iff {α : Type} (fields : String → List String) (h h' : Head) (n : Nat) (ts us : List (Tree α)) (hh : h.Fits n)
    (hh' : h'.Fits ts.length) (hf : ∀ c a, h' = .named c a → (fields c).Nodup ∧ (fields c).length = a) :
    childrenFor h n h' ts = .ok us ↔
      SameType h h' ∧ ts.length = n ∧ (entriesOf fields h n).map (fun e => e.get fields (.node h' ts)) = us.map .ok := by
  have hdict : ∀ ks ks' : List Key, h.dictKeys = some ks → h'.dictKeys = some ks' → SameType h h' → entriesOf fields h n = ks.map .map →
      (ks.length = n ∧ (ks.map Key.norm).Nodup ∧ ∀ k ∈ ks, k.hashable = true) → (ks'.length = ts.length ∧ (ks'.map Key.norm).Nodup ∧ ∀ k ∈ ks', k.hashable = true) →
      (childrenFor h n h' ts = .ok us ↔
        SameType h h' ∧ ts.length = n ∧ (entriesOf fields h n).map (fun e => e.get fields (.node h' ts)) = us.map .ok) := by
    intro ks ks' e1 e2 hs he f1 f2
    unfold childrenFor
    rw [e1, e2, he]
    simp only [List.map_map]
    have hget : ∀ k, (Function.comp (fun e => KeyEntry.get fields e (.node h' ts)) KeyEntry.map) k =
        (match dictGet k ks' ts with | none => .error .keyError | some v => .ok v) := by
      intro k
      simp only [Function.comp, KeyEntry.get, e2]
      cases dictGet k ks' ts <;> rfl
    have hmap : (ks.map ((fun e => KeyEntry.get fields e (.node h' ts)) ∘ KeyEntry.map) = us.map .ok) ↔ ks.map (fun k => dictGet k ks' ts) = us.map some := by
      rw [List.map_congr_left (fun k _ => hget k)]
      clear f1 he e1
      induction ks generalizing us with
      | nil => cases us <;> simp
      | cons k ks ih =>
        cases us with
        | nil => simp
        | cons u us =>
          simp only [List.map_cons, List.cons.injEq, ih us]
          cases dictGet k ks' ts <;> simp
    rw [hmap]
    by_cases hl : ts.length = n
    · rw [if_neg (by omega), if_neg (by simp; exact fun x hx => f1.2.2 x hx)]
      constructor
      · intro h1
        split at h1
        · cases h1
        · exact ⟨hs, hl, (dictGetAll_iff ks' ts ks us).1 h1⟩
      · rintro ⟨_, _, h1⟩
        have hsub : ∀ x ∈ ks.map Key.norm, x ∈ ks'.map Key.norm := by
          intro x hx
          obtain ⟨k, hk, rfl⟩ := List.mem_map.1 hx
          rw [← dictGet_isSome k ks' ts (by omega)]
          have : dictGet k ks' ts ∈ us.map some := by
            rw [← h1]
            exact List.mem_map.2 ⟨k, hk, rfl⟩
          obtain ⟨u, _, hu⟩ := List.mem_map.1 this
          rw [← hu]
          rfl
        have hback := nodup_subset_back f1.2.1 hsub (by simp; omega)
        have hset : sameKeySet ks ks' = true := by
          unfold sameKeySet
          simp only [Bool.and_eq_true, List.all_eq_true, List.any_eq_true, decide_eq_true_eq]
          constructor
          · intro k hk
            obtain ⟨k', hk', e⟩ := List.mem_map.1 (hsub _ (List.mem_map.2 ⟨k, hk, rfl⟩))
            exact ⟨k', hk', e⟩
          · intro k hk
            obtain ⟨k', hk', e⟩ := List.mem_map.1 (hback _ (List.mem_map.2 ⟨k, hk, rfl⟩))
            exact ⟨k', hk', e⟩
        rw [if_neg (by rw [hset]; decide)]
        exact (dictGetAll_iff ks' ts ks us).2 h1
    · rw [if_pos hl]
      simp [hl]
  have hseq : h.dictKeys = none → h'.dictKeys = none → (∀ c a, h ≠ .named c a) → (∀ c a, h' ≠ .named c a) → (SameType h h' ↔ h.kind = h'.kind) →
      entriesOf fields h n = (List.range n).map .seq → (childrenFor h n h' ts = .ok us ↔
        SameType h h' ∧ ts.length = n ∧ (entriesOf fields h n).map (fun e => e.get fields (.node h' ts)) = us.map .ok) := by
    intro e1 e2 n1 n2 hs he
    have hc : childrenFor h n h' ts = (if h.kind ≠ h'.kind then .error .valueError else if ts.length ≠ n then .error .valueError else .ok ts) := by
      unfold childrenFor
      rw [e1, e2]
      simp only
      split
      · rfl
      · split
        · rfl
        · cases h <;> first | rfl | (exact absurd rfl (n1 _ _))
    rw [hc, hs, he]
    simp only [List.map_map]
    by_cases hk : h.kind = h'.kind
    · rw [if_neg (by simp [hk])]
      by_cases hl : ts.length = n
      · rw [if_neg (by omega)]
        subst hl
        have hget : ((List.range ts.length).map ((fun e => KeyEntry.get fields e (.node h' ts)) ∘ KeyEntry.seq)) = ts.map .ok := by
          apply List.ext_getElem
          · simp
          · intro i h1 h2
            simp at h1
            simp [KeyEntry.get, e2, h1]
        rw [hget]
        simp only [Except.ok.injEq, hk, true_and]
        exact ⟨fun h => by rw [h], fun h => map_ok_inj h⟩
      · rw [if_pos hl]; simp [hl]
    · rw [if_pos hk]; simp [hk]
  cases h with
  | named c a =>
    cases h' with
    | named c' a' =>
      obtain ⟨g1, g2⟩ := hf c' a' rfl
      simp only [Head.Fits] at hh hh'
      have hc : childrenFor (.named c a) n (.named c' a') ts =
          (if ts.length ≠ n then .error .valueError else if c = c' ∧ a = a' then .ok ts else .error .valueError) := rfl
      rw [hc]
      simp only [SameType, entriesOf, List.map_map]
      by_cases hl : ts.length = n
      · rw [if_neg (by omega)]
        by_cases hcc : c = c' ∧ a = a'
        · rw [if_pos hcc]
          obtain ⟨rfl, rfl⟩ := hcc
          have hget : ((fields c).map ((fun e => KeyEntry.get fields e (.node (.named c a) ts)) ∘ KeyEntry.attr)) = ts.map .ok := by
            have h1 := fieldGet_self (fields c) ts (by omega) g1
            have h2 : ((fields c).map ((fun e => KeyEntry.get fields e (.node (.named c a) ts)) ∘ KeyEntry.attr)) =
                ((fields c).map (fun n => fieldGet n (fields c) ts)).map (fun o => match o with | none => .error .attributeError | some v => .ok v) := by
              rw [List.map_map]
              apply List.map_congr_left
              intro m _
              simp only [Function.comp, KeyEntry.get]
              cases fieldGet m (fields c) ts <;> rfl
            rw [h2, h1, List.map_map]
            rfl
          rw [hget]
          simp only [Except.ok.injEq, and_self, hl, true_and]
          exact ⟨fun h => by rw [h], fun h => map_ok_inj h⟩
        · rw [if_neg hcc]; simp [hcc]
      · rw [if_pos hl]; simp [hl]
    | _ => simp [childrenFor, Head.dictKeys, Head.kind, SameType]
  | dict ks =>
    cases h' with
    | dict ks' => exact hdict ks ks' rfl rfl trivial rfl hh hh'
    | odict ks' => exact hdict ks ks' rfl rfl trivial rfl hh hh'
    | ddict f ks' => exact hdict ks ks' rfl rfl trivial rfl hh hh'
    | _ => simp [childrenFor, Head.dictKeys, Head.kind, SameType]
  | odict ks =>
    cases h' with
    | dict ks' => exact hdict ks ks' rfl rfl trivial rfl hh hh'
    | odict ks' => exact hdict ks ks' rfl rfl trivial rfl hh hh'
    | ddict f ks' => exact hdict ks ks' rfl rfl trivial rfl hh hh'
    | _ => simp [childrenFor, Head.dictKeys, Head.kind, SameType]
  | ddict f ks =>
    cases h' with
    | dict ks' => exact hdict ks ks' rfl rfl trivial rfl hh hh'
    | odict ks' => exact hdict ks ks' rfl rfl trivial rfl hh hh'
    | ddict f' ks' => exact hdict ks ks' rfl rfl trivial rfl hh hh'
    | _ => simp [childrenFor, Head.dictKeys, Head.kind, SameType]
  | tuple =>
    cases h' with
    | tuple => exact hseq rfl rfl (by simp) (by simp) (by simp [SameType, Head.kind]) rfl
    | _ => simp [childrenFor, Head.dictKeys, Head.kind, SameType]
  | list =>
    cases h' with
    | list => exact hseq rfl rfl (by simp) (by simp) (by simp [SameType, Head.kind]) rfl
    | _ => simp [childrenFor, Head.dictKeys, Head.kind, SameType]
  | deque m =>
    cases h' with
    | deque m' => exact hseq rfl rfl (by simp) (by simp) (by simp [SameType, Head.kind]) rfl
    | _ => simp [childrenFor, Head.dictKeys, Head.kind, SameType]

/-- The keys of a container give its own children. -/
theorem entries_self {α : Type} (fields : String → List String) (h : Head) (cs : List (Tree α)) (hh : h.Fits cs.length)
    (hf : ∀ c a, h = .named c a → (fields c).Nodup ∧ (fields c).length = a) :
    (entriesOf fields h cs.length).map (fun e => e.get fields (.node h cs)) = cs.map .ok ∧ (entriesOf fields h cs.length).length = cs.length := by
  have hs : SameType h h := by cases h <;> simp [SameType]
  have hlen : (entriesOf fields h cs.length).length = cs.length := by
    cases h with
    | named c a =>
      simp only [Head.Fits] at hh
      simp only [entriesOf, List.length_map, (hf c a rfl).2]
      omega
    | dict ks => simp only [entriesOf, List.length_map]; exact hh.1
    | odict ks => simp only [entriesOf, List.length_map]; exact hh.1
    | ddict f ks => simp only [entriesOf, List.length_map]; exact hh.1
    | tuple => simp [entriesOf]
    | list => simp [entriesOf]
    | deque m => cases m <;> simp [entriesOf]
  refine ⟨?_, hlen⟩
  have hc : childrenFor h cs.length h cs = .ok cs := by
    have hd : ∀ ks : List Key, (ks.length = cs.length ∧ (ks.map Key.norm).Nodup ∧ ∀ k ∈ ks, k.hashable = true) → h.dictKeys = some ks →
        childrenFor h cs.length h cs = .ok cs := by
      intro ks hk e
      unfold childrenFor
      rw [e]
      simp only
      rw [if_neg (by simp), if_neg (by simp; exact fun x hx => hk.2.2 x hx), if_neg]
      · exact (dictGetAll_iff ks cs ks cs).2 (dictGet_self ks cs hk.1 hk.2.1)
      · simp only [sameKeySet, Bool.not_eq_true', Bool.not_eq_false, Bool.and_self, List.all_eq_true, List.any_eq_true, decide_eq_true_eq]
        exact fun x hx => ⟨x, hx, rfl⟩
    cases h with
    | named c a => simp [childrenFor, Head.dictKeys]
    | dict ks => exact hd ks hh rfl
    | odict ks => exact hd ks hh rfl
    | ddict f ks => exact hd ks hh rfl
    | tuple => simp [childrenFor, Head.dictKeys]
    | list => simp [childrenFor, Head.dictKeys]
    | deque m => simp [childrenFor, Head.dictKeys]
  exact ((childrenFor_iff fields h h cs.length cs cs hh hh hf).1 hc).2.2

end LitData
