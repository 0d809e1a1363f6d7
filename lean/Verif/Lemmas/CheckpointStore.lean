import Verif.Model.CheckpointStore
import Verif.Props.FsProvider
import Verif.Props.Checkpoint

/-! Lemmas on the folder of checkpoints. -/

namespace LitData
open LitData.Props

theorem first_slash (k : PathStr) (h : '/' ∈ k) : ∃ first pre, k = first ++ '/' :: pre ∧ '/' ∉ first := by
  induction k with
  | nil => simp at h
  | cons c k ih =>
    by_cases hc : c = '/'
    · exact ⟨[], k, by simp [hc], by simp⟩
    · have : '/' ∈ k := by
        rcases List.mem_cons.1 h with h | h
        · exact absurd h.symm hc
        · exact h
      obtain ⟨first, pre, rfl, hf⟩ := ih this
      exact ⟨c :: first, pre, rfl, by simp [hf, Ne.symm hc]⟩

theorem Objects.get_of_mem {α : Type} (o : Objects α) (hn : (o.map (·.1)).Nodup) {k : PathStr × PathStr} {x : α} (h : (k, x) ∈ o) : o.get k = some x := by
  unfold Objects.get
  induction o with
  | nil => simp at h
  | cons e o ih =>
    obtain ⟨a, b⟩ := e
    simp only [List.map_cons, List.nodup_cons] at hn
    rcases List.mem_cons.1 h with h | hm
    · injection h with h1 h2
      subst h1 h2
      simp
    · have hne : (k == a) = false := by
        simp only [beq_eq_false_iff_ne, ne_eq]
        rintro rfl
        exact hn.1 (List.mem_map_of_mem (f := fun e : (PathStr × PathStr) × α => e.1) hm)
      rw [List.lookup_cons, hne]
      exact ih hn.2 hm

theorem Objects.mem_of_get {α : Type} (o : Objects α) {k : PathStr × PathStr} {x : α} (h : o.get k = some x) : (k, x) ∈ o := by
  unfold Objects.get at h
  induction o with
  | nil => simp at h
  | cons e o ih =>
    obtain ⟨a, b⟩ := e
    rw [List.lookup_cons] at h
    by_cases ha : k = a
    · subst ha
      simp only [beq_self_eq_true] at h
      injection h with h
      simp [h]
    · have : (k == a) = false := by simpa using ha
      rw [this] at h
      exact List.mem_cons_of_mem _ (ih h)

theorem Objects.get_none {α : Type} (o : Objects α) {k : PathStr × PathStr} (h : ∀ x, (k, x) ∉ o) : o.get k = none := by
  cases hg : o.get k with
  | none => rfl
  | some x => exact absurd (o.mem_of_get hg) (h x)

theorem Objects.mem_put {α : Type} (o : Objects α) (k k' : PathStr × PathStr) (x x' : α) :
    (k', x') ∈ o.put k x ↔ (k' = k ∧ x' = x) ∨ (k' ≠ k ∧ (k', x') ∈ o) := by
  unfold Objects.put
  rw [List.mem_cons, List.mem_filter]
  simp only [Prod.mk.injEq, bne_iff_ne, ne_eq]
  constructor
  · rintro (h | ⟨h1, h2⟩)
    · exact Or.inl h
    · exact Or.inr ⟨h2, h1⟩
  · rintro (h | ⟨h1, h2⟩)
    · exact Or.inl h
    · exact Or.inr ⟨h2, h1⟩

theorem Objects.nodup_put {α : Type} (o : Objects α) (k : PathStr × PathStr) (x : α) (hn : (o.map (·.1)).Nodup) : ((o.put k x).map (·.1)).Nodup := by
  unfold Objects.put
  rw [List.map_cons, List.nodup_cons]
  refine ⟨?_, hn.sublist (List.filter_sublist.map _)⟩
  intro h
  obtain ⟨e, he, hk⟩ := List.mem_map.1 h
  have := (List.mem_filter.1 he).2
  rw [hk] at this
  simp at this

theorem sortBy_sorted {α : Type} (le : α → α → Bool) (l : List α) (h : l.Pairwise fun a b => le a b = true) : sortBy le l = l := by
  induction l with
  | nil => rfl
  | cons a l ih =>
    rw [List.pairwise_cons] at h
    unfold sortBy
    rw [ih h.2]
    cases l with
    | nil => rfl
    | cons b l =>
      unfold insertBy
      rw [if_pos (h.1 b (by simp))]

theorem lexLe_append (p a b : List Char) : lexLe (p ++ a) (p ++ b) = lexLe a b := by
  induction p with
  | nil => rfl
  | cons c p ih =>
    rw [List.cons_append, List.cons_append]
    simp [lexLe, ih]

/-- **The folder of checkpoints after the download.** All objects below a folder, none in folders of it. -/
theorem downloadDir_flat {α : Type} (st : ObjStore) (o : Objects α) (hn : (o.map (·.1)).Nodup) (bucket Q tmp : PathStr) (hb : BucketName bucket)
    (hk : UrlKey Q) (hQ : CleanKey Q) (ht : tmp ≠ []) (he : tmp.getLast? ≠ some '/') (files : LocalFiles α) (hfresh : ∀ p, files (tmp ++ '/' :: p) = none)
    (hflat : ∀ rel x, ((bucket, Q ++ '/' :: rel), x) ∈ o → rel ≠ [] ∧ '/' ∉ rel) (hsome : ∃ rel x, ((bucket, Q ++ '/' :: rel), x) ∈ o)
    (hpage : st = .s3 → (o.filter fun e => e.1.1 == bucket && (Q ++ ['/']).isPrefixOf e.1.2).length ≤ 1000) :
    ∃ D files', st.downloadDir o (objectUrl st bucket (Q ++ ['/'])) tmp files = .ok (D, files') ∧ D ≠ [] ∧ D.getLast? ≠ some '/' ∧
      ∀ rel, files' (D ++ '/' :: rel) = o.get (bucket, Q ++ '/' :: rel) := by
  obtain ⟨first, pre, hsplit, hf⟩ := first_slash (Q ++ ['/']) (by simp)
  have hkeys : ∀ rel, first ++ '/' :: (pre ++ rel) = Q ++ '/' :: rel := by
    intro rel
    have : first ++ '/' :: (pre ++ rel) = (first ++ '/' :: pre) ++ rel := by simp
    rw [this, ← hsplit]
    simp
  have hclean : ∀ rel x, ((bucket, first ++ '/' :: (pre ++ rel)), x) ∈ o → rel ≠ [] ∧ CleanKey (first ++ '/' :: (pre ++ rel)) := by
    intro rel x hm
    rw [hkeys] at hm ⊢
    obtain ⟨h1, h2⟩ := hflat rel x hm
    refine ⟨h1, CleanKey.both.2 ⟨hQ, ?_⟩⟩
    intro p hp
    rw [splitChar_none '/' rel h2] at hp
    simp only [List.mem_singleton] at hp
    rw [hp]
    exact h1
  have hpage' : st = .s3 → (o.filter fun e => e.1.1 == bucket && (first ++ '/' :: pre).isPrefixOf e.1.2).length ≤ 1000 := by
    rw [← hsplit]
    exact hpage
  have hk' : UrlKey (first ++ '/' :: pre) := by
    rw [← hsplit]
    exact UrlKey.append.2 ⟨hk, by unfold UrlKey; decide⟩
  obtain ⟨saved, files', hrun, hin, hout, hsaved⟩ := c67_download_directory_partial st o hn bucket first pre tmp hb hk' hf ht he files hclean hpage'
  have hD : ∃ D, tmp ++ '/' :: localPart st first pre = D ++ ['/'] := by
    have hlast : (tmp ++ '/' :: localPart st first pre).getLast? = some '/' := by
      cases st with
      | s3 =>
        show (tmp ++ '/' :: (first ++ '/' :: pre)).getLast? = _
        rw [← hsplit, show tmp ++ '/' :: (Q ++ ['/']) = (tmp ++ '/' :: Q) ++ ['/'] by simp, List.getLast?_append]
        rfl
      | gcp =>
        show (tmp ++ '/' :: pre).getLast? = _
        rcases List.eq_nil_or_concat pre with rfl | ⟨q, c, rfl⟩
        · simp
        · have hc : c = '/' := by
            have := congrArg List.getLast? hsplit
            simpa [List.getLast?_append, List.getLast?_cons] using this.symm
          subst hc
          simp [List.getLast?_append, List.getLast?_cons]
    obtain ⟨ys, hys⟩ := List.getLast?_eq_some_iff.1 hlast
    exact ⟨ys, hys⟩
  obtain ⟨D, hD⟩ := hD
  obtain ⟨rel0, x0, hm0⟩ := hsome
  have hDs : saved = D := hsaved D hD (fun rel x hm => (hflat rel x (by rwa [hkeys] at hm)).2) ⟨rel0, x0, by rwa [hkeys]⟩
  have hpath : ∀ rel, tmp ++ '/' :: localPart st first (pre ++ rel) = D ++ '/' :: rel := by
    intro rel
    have : tmp ++ '/' :: localPart st first (pre ++ rel) = (tmp ++ '/' :: localPart st first pre) ++ rel := by
      cases st <;> simp [localPart]
    rw [this, hD]
    simp
  subst hDs
  refine ⟨saved, files', ?_, ?_, ?_, ?_⟩
  · rw [hsplit]
    exact hrun
  · rintro rfl
    have := congrArg List.length hD
    cases tmp with
    | nil => exact ht rfl
    | cons c d => simp at this
  · have hc := (hclean rel0 x0 (by rwa [hkeys])).2
    exact folder_last st first pre tmp saved rel0 hD he hc
  · intro rel
    by_cases hex : ∃ x, ((bucket, Q ++ '/' :: rel), x) ∈ o
    · obtain ⟨x, hx⟩ := hex
      rw [o.get_of_mem hn hx, ← hpath]
      exact hin rel x (by rwa [hkeys])
    · rw [o.get_none fun x hx => hex ⟨x, hx⟩]
      rw [hout _ ?_, ← hpath]
      · exact hfresh _
      · intro rel' x hm heq
        rw [← hpath] at heq
        have heq' : localPart st first (pre ++ rel) = localPart st first (pre ++ rel') := by simpa using heq
        have : rel = rel' := by cases st <;> simpa [localPart] using heq'
        subst this
        rw [hkeys] at hm
        exact hex ⟨x, hm⟩

theorem readCkpts_spec (dir : PathStr) (files : LocalFiles CkText) (g : Nat → Option Ckpt) (is : List Nat)
    (h : ∀ i ∈ is, files (joinPath dir (ckptName i)) = (g i).map .ckpt) : readCkpts dir files is = .ok (is.map fun i => (g i).getD ⟨[], 0⟩) := by
  induction is with
  | nil => rfl
  | cons i is ih =>
    have hi := h i (by simp)
    unfold readCkpts
    rw [hi]
    cases hg : g i with
    | none => simp [ih fun j hj => h j (by simp [hj]), hg, bind, Except.bind, pure, Except.pure]
    | some c => simp [ih fun j hj => h j (by simp [hj]), hg, bind, Except.bind, pure, Except.pure]

theorem ckptName_plain (i : Nat) : '/' ∉ ckptName i := by
  have hd : '/' ∉ Nat.toDigits 10 i := by
    intro h
    have := Nat.isDigit_of_mem_toDigits (by decide) (by decide) h
    revert this
    decide
  unfold ckptName
  simp only [List.mem_append]
  rintro ((h | h) | h)
  · revert h; decide
  · exact hd h
  · revert h; decide

theorem config_plain : '/' ∉ "config.json".toList := by decide

theorem loadFrom_spec (D : PathStr) (hD : D ≠ []) (he : D.getLast? ≠ some '/') (files : LocalFiles CkText) (n numWorkers : Nat) (its items : List (List UserItem))
    (g : Nat → Option Ckpt) (hc : files (D ++ '/' :: "config.json".toList) = some (.config n its))
    (hg : ∀ i < numWorkers, files (D ++ '/' :: ckptName i) = (g i).map .ckpt) :
    loadFrom D files numWorkers items = (checkConfig (n, its) numWorkers items).bind fun _ => .ok ((List.range numWorkers).map fun i => (g i).getD ⟨[], 0⟩) := by
  unfold loadFrom
  rw [joinPath_plain D _ hD he config_plain, hc]
  have := readCkpts_spec D files g (List.range numWorkers) fun i hi => by
    rw [joinPath_plain D _ hD he (ckptName_plain i)]
    exact hg i (List.mem_range.1 hi)
  simp only [this]
  rfl

theorem checkpointsUrl_eq (base : PathStr) (slash : Bool) (he : base.getLast? ≠ some '/') : checkpointsUrl (outputOf base slash) = base ++ "/.checkpoints/".toList := by
  have : rstripSlash (outputOf base slash) = base := by
    cases slash with
    | false => simpa [outputOf] using rstripSlash_eq he
    | true =>
      have := rstripSlash_eq he
      unfold rstripSlash at this ⊢
      simpa [outputOf] using this
  unfold checkpointsUrl
  rw [this]
  simp

theorem objectUrl_append (st : ObjStore) (bucket a b : PathStr) : objectUrl st bucket a ++ b = objectUrl st bucket (a ++ b) := by simp [objectUrl]

theorem objectUrl_last (st : ObjStore) (bucket key : PathStr) (h : key.getLast? ≠ some '/') (hne : key ≠ []) : (objectUrl st bucket key).getLast? ≠ some '/' := by
  unfold objectUrl
  exact getLast?_append_slash _ key h hne

end LitData
