import Verif.Model.CacheDir
import Verif.Model.Resolver

/-!
Properties of the cache directory of a dataset (C58).
-/

namespace LitData.Props

open LitData

theorem mem_listdir_cons {fs : LocalFs} {d : List String} {e : List String × Bytes} (he : e ∈ fs) {x : String} {r : List String} (h : e.1 = d ++ x :: r) :
    x ∈ fs.listdir d := by
  unfold LocalFs.listdir
  rw [List.mem_eraseDups, List.mem_filterMap]
  refine ⟨e, he, ?_⟩
  rw [if_pos (by rw [h, List.isPrefixOf_iff_prefix]; exact List.prefix_append _ _), h, List.drop_left]
  rfl

/-- **C58, what is found was cached for this version.** After the cache directory is made, every file below the directory of the URL is below that of the version and was
there before. Nothing outside is touched. If there was another version, or a second one, nothing is left; otherwise everything is. -/
theorem c58_create (env : CacheDirEnv) (cacheDir : Option (List String)) (inputDir url : Option String) (updatedAt : String) (fs fs' : LocalFs)
    (dir : List String) (h : tryCreateCacheDir env cacheDir inputDir url updatedAt fs = .ok (dir, fs')) :
    dir = env.top cacheDir url ++ [env.version inputDir updatedAt] ∧
    (∀ e, ¬ env.top cacheDir url <+: e.1 → (e ∈ fs' ↔ e ∈ fs)) ∧
    (∀ e ∈ fs', env.top cacheDir url <+: e.1 → e.1 ≠ env.top cacheDir url → dir <+: e.1 ∧ e ∈ fs) ∧
    ((∃ e ∈ fs, env.top cacheDir url <+: e.1 ∧ e.1 ≠ env.top cacheDir url ∧ ¬ dir <+: e.1) → ∀ e ∈ fs', ¬ env.top cacheDir url <+: e.1) := by
  unfold tryCreateCacheDir at h
  generalize hv : env.version inputDir updatedAt = v at *
  generalize ht : env.top cacheDir url = top at *
  cases hc : clearIfUpdated fs top v with
  | error e => rw [hc] at h; cases h
  | ok g =>
    rw [hc] at h
    cases h
    have hsplit : ∀ p : List String, top <+: p → p ≠ top → ∃ x r, p = top ++ x :: r := by
      intro p hp hne
      obtain ⟨r, rfl⟩ := hp
      cases r with
      | nil => simp at hne
      | cons x r => exact ⟨x, r, rfl⟩
    unfold clearIfUpdated at hc
    split at hc
    · split at hc
      · rename_i hl
        cases hc
        have hin : ∀ e ∈ fs, top <+: e.1 → e.1 ≠ top → top ++ [v] <+: e.1 := by
          intro e he hp hne
          obtain ⟨x, r, hx⟩ := hsplit e.1 hp hne
          have := mem_listdir_cons he hx
          rw [hl, List.mem_singleton] at this
          rw [hx, this]
          exact ⟨r, by simp⟩
        refine ⟨rfl, fun _ _ => Iff.rfl, fun e he hp hne => ⟨hin e he hp hne, he⟩, ?_⟩
        rintro ⟨e, he, hp, hne, hnot⟩
        exact absurd (hin e he hp hne) hnot
      · unfold LocalFs.rmtree at hc
        split at hc
        · cases hc
        · cases hc
          have hgone : ∀ e ∈ fs.filter (fun e => !top.isPrefixOf e.1), ¬ top <+: e.1 := by
            intro e he hp
            have := (List.mem_filter.1 he).2
            rw [List.isPrefixOf_iff_prefix.2 hp] at this
            cases this
          refine ⟨rfl, ?_, fun e he hp => absurd hp (hgone e he), fun _ => hgone⟩
          intro e hne
          rw [List.mem_filter]
          constructor
          · exact fun h => h.1
          · intro h
            refine ⟨h, ?_⟩
            rw [Bool.not_eq_true', Bool.eq_false_iff]
            exact fun hp => hne (List.isPrefixOf_iff_prefix.1 hp)
    · rename_i hno
      cases hc
      have hno' : ∀ e ∈ fs, ¬ top <+: e.1 := by
        intro e he hp
        apply hno
        unfold LocalFs.has
        rw [List.any_eq_true]
        exact ⟨e, he, List.isPrefixOf_iff_prefix.2 hp⟩
      exact ⟨rfl, fun _ _ => Iff.rfl, fun e he hp => absurd hp (hno' e he), fun _ => hno'⟩

/-- **C58, the same version again.** If only this version is cached, all its files stay. -/
theorem c58_reuse (env : CacheDirEnv) (cacheDir : Option (List String)) (inputDir url : Option String) (updatedAt : String) (fs : LocalFs)
    (hdirs : ∀ e ∈ fs, env.top cacheDir url <+: e.1 → env.top cacheDir url ++ [env.version inputDir updatedAt] <+: e.1) :
    tryCreateCacheDir env cacheDir inputDir url updatedAt fs = .ok (env.top cacheDir url ++ [env.version inputDir updatedAt], fs) := by
  unfold tryCreateCacheDir clearIfUpdated
  generalize env.version inputDir updatedAt = v at *
  generalize env.top cacheDir url = top at *
  split
  · rename_i hhas
    have hl : fs.listdir top = [v] := by
      unfold LocalFs.has at hhas
      rw [List.any_eq_true] at hhas
      obtain ⟨e0, he0, hp0⟩ := hhas
      have hall : ∀ x ∈ fs.filterMap (fun e => if top.isPrefixOf e.1 then (e.1.drop top.length).head? else none), x = v := by
        intro x hx
        obtain ⟨e, he, h⟩ := List.mem_filterMap.1 hx
        split at h
        · rename_i hp
          obtain ⟨r, hr⟩ := hdirs e he (List.isPrefixOf_iff_prefix.1 hp)
          rw [← hr, List.append_assoc, List.drop_left] at h
          cases h
          rfl
        · cases h
      have hmem : v ∈ fs.filterMap (fun e => if top.isPrefixOf e.1 then (e.1.drop top.length).head? else none) := by
        rw [List.mem_filterMap]
        refine ⟨e0, he0, ?_⟩
        rw [if_pos hp0]
        obtain ⟨r, hr⟩ := hdirs e0 he0 (List.isPrefixOf_iff_prefix.1 hp0)
        rw [← hr, List.append_assoc, List.drop_left]
        rfl
      unfold LocalFs.listdir
      generalize fs.filterMap (fun e => if top.isPrefixOf e.1 then (e.1.drop top.length).head? else none) = l at *
      cases l with
      | nil => cases hmem
      | cons a l =>
        rw [List.eraseDups_cons]
        have ha := hall a List.mem_cons_self
        subst ha
        have : l.filter (fun b => !b == a) = [] := by
          rw [List.filter_eq_nil_iff]
          intro x hx
          rw [hall x (List.mem_cons_of_mem _ hx)]
          simp
        rw [this]
        rfl
    rw [if_pos hl]
    rfl
  · rfl

/-- The files below the cache directory are those of versions of the datasets `urls`, each below its own directory. -/
def CachedFiles (env : CacheDirEnv) (root : List String) (urls : List String) (remote : String → String → List String → Bytes) (fs : LocalFs) : Prop :=
  ∀ e ∈ fs, root <+: e.1 → ∃ u v name, u ∈ urls ∧ name ≠ [] ∧ e.1 = root ++ [env.md5 u, v] ++ name ∧ e.2 = remote u v name

theorem cachedFiles_session (env : CacheDirEnv) (root : List String) (urls : List String) (remote : String → String → List String → Bytes) (fs : LocalFs)
    (h : CachedFiles env root urls remote fs) (s : CacheSession) (hu : s.url ∈ urls) (hv : s.updatedAt ≠ "0") (hf : ∀ n ∈ s.files, n ≠ []) :
    ∃ fs', runSession env (some root) remote fs s = .ok fs' ∧ CachedFiles env root urls remote fs' ∧
      (∀ e ∈ fs', root ++ [env.md5 s.url] <+: e.1 → root ++ [env.md5 s.url, s.updatedAt] <+: e.1) ∧
      (∀ n ∈ ["index.json"] :: s.files, ∃ b, (root ++ [env.md5 s.url, s.updatedAt] ++ n, b) ∈ fs') ∧
      (∀ e, ¬ root ++ [env.md5 s.url] <+: e.1 → (e ∈ fs' ↔ e ∈ fs)) := by
  have htop : env.top (some root) (some s.url) = root ++ [env.md5 s.url] := rfl
  have hver : env.version (some s.inputDir) s.updatedAt = s.updatedAt := by simp [CacheDirEnv.version, hv]
  have hdir : root ++ [env.md5 s.url] ++ [s.updatedAt] = root ++ [env.md5 s.url, s.updatedAt] := by simp
  have hroot : ∀ p : List String, root ++ [env.md5 s.url] <+: p → root <+: p := fun p hp => (List.prefix_append _ _).trans hp
  -- the directory is made
  obtain ⟨g, hg, hgc, hgv, hgo⟩ : ∃ g, tryCreateCacheDir env (some root) (some s.inputDir) (some s.url) s.updatedAt fs =
      .ok (root ++ [env.md5 s.url, s.updatedAt], g) ∧ CachedFiles env root urls remote g ∧
      (∀ e ∈ g, root ++ [env.md5 s.url] <+: e.1 → root ++ [env.md5 s.url, s.updatedAt] <+: e.1) ∧
      (∀ e, ¬ root ++ [env.md5 s.url] <+: e.1 → (e ∈ g ↔ e ∈ fs)) := by
    cases hc : tryCreateCacheDir env (some root) (some s.inputDir) (some s.url) s.updatedAt fs with
    | error err =>
      exfalso
      unfold tryCreateCacheDir clearIfUpdated LocalFs.rmtree at hc
      rw [htop] at hc
      split at hc
      · split at hc
        · cases hc
        · split at hc
          · rename_i hfile
            unfold LocalFs.isFile at hfile
            rw [List.any_eq_true] at hfile
            obtain ⟨e, he, hp⟩ := hfile
            have hp : e.1 = root ++ [env.md5 s.url] := by simpa using hp
            obtain ⟨u, v, name, _, _, hx, _⟩ := h e he (by rw [hp]; exact List.prefix_append _ _)
            rw [hp] at hx
            have := congrArg List.length hx
            simp only [List.length_append, List.length_cons, List.length_nil] at this
            omega
          · cases hc
      · cases hc
    | ok r =>
      obtain ⟨dir, g⟩ := r
      obtain ⟨h1, h2, h3, _⟩ := c58_create env (some root) (some s.inputDir) (some s.url) s.updatedAt fs g dir hc
      rw [htop] at h1 h2 h3
      rw [hver, hdir] at h1
      subst h1
      have hnot : ∀ e ∈ g, root ++ [env.md5 s.url] <+: e.1 → e.1 ≠ root ++ [env.md5 s.url] := by
        intro e he hp heq
        have hfs : e ∈ fs ∨ e ∉ fs := Classical.em _
        rcases hfs with hfs | hfs
        · obtain ⟨u, v, name, _, _, hx, _⟩ := h e hfs (hroot _ hp)
          rw [heq] at hx
          have := congrArg List.length hx
          simp only [List.length_append, List.length_cons, List.length_nil] at this
          omega
        · apply hfs
          -- everything that is left was there
          have hsub : ∀ x ∈ g, x ∈ fs := by
            unfold tryCreateCacheDir at hc
            cases hcl : clearIfUpdated fs (env.top (some root) (some s.url)) (env.version (some s.inputDir) s.updatedAt) with
            | error err => rw [hcl] at hc; cases hc
            | ok g' =>
              rw [hcl] at hc
              simp only [Except.map, Except.ok.injEq, Prod.mk.injEq] at hc
              rw [← hc.2]
              unfold clearIfUpdated LocalFs.rmtree at hcl
              split at hcl
              · split at hcl
                · cases hcl; exact fun _ h => h
                · split at hcl
                  · cases hcl
                  · cases hcl; exact fun x hx => (List.mem_filter.1 hx).1
              · cases hcl; exact fun _ h => h
          exact hsub e he
      refine ⟨g, rfl, ?_, fun e he hp => (h3 e he hp (hnot e he hp)).1, h2⟩
      intro e he hp
      by_cases ht : root ++ [env.md5 s.url] <+: e.1
      · exact h e (h3 e he ht (hnot e he ht)).2 hp
      · exact h e ((h2 e ht).1 he) hp
  -- the files are added one by one
  have hadd : ∀ (n : List String) (g : LocalFs), n ≠ [] → CachedFiles env root urls remote g →
      (∀ e ∈ g, root ++ [env.md5 s.url] <+: e.1 → root ++ [env.md5 s.url, s.updatedAt] <+: e.1) →
      (∀ e, ¬ root ++ [env.md5 s.url] <+: e.1 → (e ∈ g ↔ e ∈ fs)) →
      CachedFiles env root urls remote (g ++ [(root ++ [env.md5 s.url, s.updatedAt] ++ n, remote s.url s.updatedAt n)]) ∧
      (∀ e ∈ g ++ [(root ++ [env.md5 s.url, s.updatedAt] ++ n, remote s.url s.updatedAt n)], root ++ [env.md5 s.url] <+: e.1 →
        root ++ [env.md5 s.url, s.updatedAt] <+: e.1) ∧
      (∀ e, ¬ root ++ [env.md5 s.url] <+: e.1 → (e ∈ g ++ [(root ++ [env.md5 s.url, s.updatedAt] ++ n, remote s.url s.updatedAt n)] ↔ e ∈ fs)) := by
    intro n g hn h1 h2 h3
    refine ⟨?_, ?_, ?_⟩
    · intro e he hp
      rcases List.mem_append.1 he with he | he
      · exact h1 e he hp
      · rw [List.mem_singleton.1 he]
        exact ⟨s.url, s.updatedAt, n, hu, hn, rfl, rfl⟩
    · intro e he hp
      rcases List.mem_append.1 he with he | he
      · exact h2 e he hp
      · rw [List.mem_singleton.1 he]
        exact List.prefix_append _ _
    · intro e hne
      rw [List.mem_append, h3 e hne, List.mem_singleton]
      constructor
      · rintro (he | he)
        · exact he
        · exfalso
          apply hne
          rw [he]
          exact ⟨s.updatedAt :: n, by simp⟩
      · exact Or.inl
  have hisFile : ∀ (g : LocalFs) (p : List String), g.isFile p = true → ∃ b, (p, b) ∈ g := by
    intro g p hp
    unfold LocalFs.isFile at hp
    rw [List.any_eq_true] at hp
    obtain ⟨e, he, hp⟩ := hp
    have hp : e.1 = p := by simpa using hp
    exact ⟨e.2, hp ▸ he⟩
  have hloop : ∀ (names : List (List String)) (g : LocalFs), (∀ n ∈ names, n ≠ []) → CachedFiles env root urls remote g →
      (∀ e ∈ g, root ++ [env.md5 s.url] <+: e.1 → root ++ [env.md5 s.url, s.updatedAt] <+: e.1) →
      (∀ e, ¬ root ++ [env.md5 s.url] <+: e.1 → (e ∈ g ↔ e ∈ fs)) →
      CachedFiles env root urls remote (names.foldl (fun fs name => if fs.isFile (root ++ [env.md5 s.url, s.updatedAt] ++ name) then fs
        else fs ++ [(root ++ [env.md5 s.url, s.updatedAt] ++ name, remote s.url s.updatedAt name)]) g) ∧
      (∀ e ∈ names.foldl (fun fs name => if fs.isFile (root ++ [env.md5 s.url, s.updatedAt] ++ name) then fs
        else fs ++ [(root ++ [env.md5 s.url, s.updatedAt] ++ name, remote s.url s.updatedAt name)]) g,
        root ++ [env.md5 s.url] <+: e.1 → root ++ [env.md5 s.url, s.updatedAt] <+: e.1) ∧
      (∀ e, ¬ root ++ [env.md5 s.url] <+: e.1 → (e ∈ names.foldl (fun fs name => if fs.isFile (root ++ [env.md5 s.url, s.updatedAt] ++ name) then fs
        else fs ++ [(root ++ [env.md5 s.url, s.updatedAt] ++ name, remote s.url s.updatedAt name)]) g ↔ e ∈ fs)) ∧
      (∀ e ∈ g, e ∈ names.foldl (fun fs name => if fs.isFile (root ++ [env.md5 s.url, s.updatedAt] ++ name) then fs
        else fs ++ [(root ++ [env.md5 s.url, s.updatedAt] ++ name, remote s.url s.updatedAt name)]) g) ∧
      (∀ n ∈ names, ∃ b, (root ++ [env.md5 s.url, s.updatedAt] ++ n, b) ∈
        names.foldl (fun fs name => if fs.isFile (root ++ [env.md5 s.url, s.updatedAt] ++ name) then fs
        else fs ++ [(root ++ [env.md5 s.url, s.updatedAt] ++ name, remote s.url s.updatedAt name)]) g) := by
    intro names
    induction names with
    | nil => intro g _ h1 h2 h3; exact ⟨h1, h2, h3, fun _ h => h, fun n h => by cases h⟩
    | cons n names ih =>
      intro g hn h1 h2 h3
      rw [List.foldl_cons]
      by_cases hfl : g.isFile (root ++ [env.md5 s.url, s.updatedAt] ++ n) = true
      · rw [if_pos hfl]
        obtain ⟨i1, i2, i3, i4, i5⟩ := ih g (fun m hm => hn m (List.mem_cons_of_mem _ hm)) h1 h2 h3
        refine ⟨i1, i2, i3, i4, ?_⟩
        intro m hm
        rcases List.mem_cons.1 hm with rfl | hm
        · obtain ⟨b, hb⟩ := hisFile _ _ hfl
          exact ⟨b, i4 _ hb⟩
        · exact i5 m hm
      · rw [if_neg hfl]
        obtain ⟨a1, a2, a3⟩ := hadd n g (hn n List.mem_cons_self) h1 h2 h3
        obtain ⟨i1, i2, i3, i4, i5⟩ := ih _ (fun m hm => hn m (List.mem_cons_of_mem _ hm)) a1 a2 a3
        refine ⟨i1, i2, i3, fun e he => i4 e (List.mem_append_left _ he), ?_⟩
        intro m hm
        rcases List.mem_cons.1 hm with rfl | hm
        · exact ⟨_, i4 _ (List.mem_append_right _ (List.mem_singleton.2 rfl))⟩
        · exact i5 m hm
  unfold runSession
  rw [hg]
  simp only [Except.bind]
  unfold fetchIndex
  by_cases hfl : g.isFile (root ++ [env.md5 s.url, s.updatedAt] ++ ["index.json"]) = true
  · rw [if_pos hfl]
    obtain ⟨i1, i2, i3, i4, i5⟩ := hloop s.files g hf hgc hgv hgo
    refine ⟨_, rfl, i1, i2, ?_, i3⟩
    intro n hn
    rcases List.mem_cons.1 hn with rfl | hn
    · obtain ⟨b, hb⟩ := hisFile _ _ hfl
      exact ⟨b, i4 _ hb⟩
    · exact i5 n hn
  · rw [if_neg hfl, if_pos rfl]
    obtain ⟨a1, a2, a3⟩ := hadd ["index.json"] g (by simp) hgc hgv hgo
    obtain ⟨i1, i2, i3, i4, i5⟩ := hloop s.files _ hf a1 a2 a3
    refine ⟨_, rfl, i1, i2, ?_, i3⟩
    intro n hn
    rcases List.mem_cons.1 hn with rfl | hn
    · exact ⟨_, i4 _ (List.mem_append_right _ (List.mem_singleton.2 rfl))⟩
    · exact i5 n hn

theorem runSessions_append (env : CacheDirEnv) (cacheDir : Option (List String)) (remote : String → String → List String → Bytes) (a b : List CacheSession)
    (fs : LocalFs) : runSessions env cacheDir remote (a ++ b) fs = (runSessions env cacheDir remote a fs).bind (runSessions env cacheDir remote b) := by
  induction a generalizing fs with
  | nil => rfl
  | cons s a ih =>
    rw [List.cons_append, runSessions, runSessions]
    cases runSession env cacheDir remote fs s with
    | error e => rfl
    | ok g => exact ih g

/-- **C58.** However many versions of however many datasets were used before, one after the other: the last one finds in its cache directory only files of its own version,
among them its index and what it downloads; the cache holds nothing of other versions of it, and what other datasets have cached is as before. -/
theorem c58_history (env : CacheDirEnv) (root : List String) (remote : String → String → List String → Bytes) (before : List CacheSession) (s : CacheSession)
    (hinj : ∀ a ∈ before ++ [s], ∀ b ∈ before ++ [s], env.md5 a.url = env.md5 b.url → a.url = b.url)
    (hv : ∀ a ∈ before ++ [s], a.updatedAt ≠ "0" ∧ ∀ n ∈ a.files, n ≠ []) (fs : LocalFs) (hfs : ∀ e ∈ fs, ¬ root <+: e.1) :
    ∃ mid fs', runSessions env (some root) remote before fs = .ok mid ∧ runSessions env (some root) remote (before ++ [s]) fs = .ok fs' ∧
      (∀ name b, (root ++ [env.md5 s.url, s.updatedAt] ++ name, b) ∈ fs' → b = remote s.url s.updatedAt name) ∧
      (∀ n ∈ ["index.json"] :: s.files, (root ++ [env.md5 s.url, s.updatedAt] ++ n, remote s.url s.updatedAt n) ∈ fs') ∧
      (∀ e ∈ fs', root ++ [env.md5 s.url] <+: e.1 → root ++ [env.md5 s.url, s.updatedAt] <+: e.1) ∧
      (∀ e, ¬ root ++ [env.md5 s.url] <+: e.1 → (e ∈ fs' ↔ e ∈ mid)) := by
  have hmid : ∀ (ss : List CacheSession) (g : LocalFs), (∀ a ∈ ss, a ∈ before ++ [s]) → CachedFiles env root ((before ++ [s]).map (·.url)) remote g →
      ∃ g', runSessions env (some root) remote ss g = .ok g' ∧ CachedFiles env root ((before ++ [s]).map (·.url)) remote g' := by
    intro ss
    induction ss with
    | nil => intro g _ h; exact ⟨g, rfl, h⟩
    | cons a ss ih =>
      intro g hin h
      have ha := hin a List.mem_cons_self
      obtain ⟨g1, h1, h2, _⟩ := cachedFiles_session env root _ remote g h a (List.mem_map_of_mem ha) (hv a ha).1 (hv a ha).2
      obtain ⟨g2, h3, h4⟩ := ih g1 (fun b hb => hin b (List.mem_cons_of_mem _ hb)) h2
      refine ⟨g2, ?_, h4⟩
      rw [runSessions, h1]
      exact h3
  obtain ⟨mid, hm, hmc⟩ := hmid before fs (fun a ha => List.mem_append_left _ ha) (fun e he hp => absurd hp (hfs e he))
  have hs : s ∈ before ++ [s] := by simp
  obtain ⟨fs', h1, h2, h3, h4, h5⟩ := cachedFiles_session env root _ remote mid hmc s (List.mem_map_of_mem hs) (hv s hs).1 (hv s hs).2
  have hval : ∀ name b, (root ++ [env.md5 s.url, s.updatedAt] ++ name, b) ∈ fs' → b = remote s.url s.updatedAt name := by
    intro name b hb
    obtain ⟨u, v, n, hu, _, hp, hx⟩ := h2 _ hb ⟨[env.md5 s.url, s.updatedAt] ++ name, by simp⟩
    simp only [List.append_assoc, List.append_cancel_left_eq, List.cons_append, List.nil_append, List.cons.injEq] at hp
    obtain ⟨hmd, hve, hn⟩ := hp
    obtain ⟨a, ha, rfl⟩ := List.mem_map.1 hu
    have := hinj s hs a ha hmd
    rw [this, hve, hn]
    exact hx
  refine ⟨mid, fs', hm, ?_, hval, ?_, h3, h5⟩
  · rw [runSessions_append, hm]
    show runSessions env (some root) remote [s] mid = _
    rw [runSessions, h1]
    rfl
  · intro n hn
    obtain ⟨b, hb⟩ := h4 n hn
    have := hval n b hb
    rwa [this] at hb

/-- Two datasets with three versions, of which the last is a version of the first dataset. -/
example : ∃ fs', runSessions ⟨id, false, ["home"], ["cache"]⟩ (some ["c"]) (fun u v n => (u ++ v ++ String.join n).toList.map Char.toUInt8)
    [⟨"s3://a", "s3://a", "1.5", [["chunk-0-0.bin"]]⟩, ⟨"s3://b", "s3://b", "7", []⟩, ⟨"s3://a", "s3://a", "2.5", [["chunk-0-0.bin"]]⟩] [(["x"], [1])] = .ok fs' ∧
    fs'.map (·.1) = [["x"], ["c", "s3://b", "7", "index.json"], ["c", "s3://a", "2.5", "index.json"], ["c", "s3://a", "2.5", "chunk-0-0.bin"]] := by
  refine ⟨_, rfl, ?_⟩
  decide +kernel

/-- **C58, nothing is fetched twice.** A second use of the same version, or of what is taken for it, changes no file, whatever the dataset holds now. -/
theorem c58_second_session (env : CacheDirEnv) (root : List String) (remote remote' : String → String → List String → Bytes) (s : CacheSession)
    (fs : LocalFs) (h : runSession env (some root) remote [] s = .ok fs) : runSession env (some root) remote' fs s = .ok fs := by
  have hdir : ∃ dir, dir = env.top (some root) (some s.url) ++ [env.version (some s.inputDir) s.updatedAt] := ⟨_, rfl⟩
  obtain ⟨dir, hdir⟩ := hdir
  have hloop : ∀ (names : List (List String)) (g : LocalFs), (∀ e ∈ g, dir <+: e.1) →
      (∀ e ∈ names.foldl (fun fs name => if fs.isFile (dir ++ name) then fs else fs ++ [(dir ++ name, remote s.url s.updatedAt name)]) g, dir <+: e.1) ∧
      (∀ e ∈ g, e ∈ names.foldl (fun fs name => if fs.isFile (dir ++ name) then fs else fs ++ [(dir ++ name, remote s.url s.updatedAt name)]) g) ∧
      (∀ n ∈ names, ∃ e ∈ names.foldl (fun fs name => if fs.isFile (dir ++ name) then fs else fs ++ [(dir ++ name, remote s.url s.updatedAt name)]) g,
        e.1 = dir ++ n) := by
    intro names
    induction names with
    | nil => intro g hg; exact ⟨hg, fun _ h => h, fun n h => by cases h⟩
    | cons n names ih =>
      intro g hg
      rw [List.foldl_cons]
      by_cases hfl : g.isFile (dir ++ n) = true
      · rw [if_pos hfl]
        obtain ⟨i1, i2, i3⟩ := ih g hg
        refine ⟨i1, i2, ?_⟩
        intro m hm
        rcases List.mem_cons.1 hm with rfl | hm
        · unfold LocalFs.isFile at hfl
          rw [List.any_eq_true] at hfl
          obtain ⟨e, he, hp⟩ := hfl
          exact ⟨e, i2 e he, by simpa using hp⟩
        · exact i3 m hm
      · rw [if_neg hfl]
        obtain ⟨i1, i2, i3⟩ := ih (g ++ [(dir ++ n, remote s.url s.updatedAt n)]) (by
          intro e he
          rcases List.mem_append.1 he with he | he
          · exact hg e he
          · rw [List.mem_singleton.1 he]; exact List.prefix_append _ _)
        refine ⟨i1, fun e he => i2 e (List.mem_append_left _ he), ?_⟩
        intro m hm
        rcases List.mem_cons.1 hm with rfl | hm
        · exact ⟨_, i2 _ (List.mem_append_right _ (List.mem_singleton.2 rfl)), rfl⟩
        · exact i3 m hm
  have hkeep : ∀ (names : List (List String)) (g : LocalFs), (∀ n ∈ names, g.isFile (dir ++ n) = true) →
      names.foldl (fun fs name => if fs.isFile (dir ++ name) then fs else fs ++ [(dir ++ name, remote' s.url s.updatedAt name)]) g = g := by
    intro names
    induction names with
    | nil => intro g _; rfl
    | cons n names ih =>
      intro g hg
      rw [List.foldl_cons, if_pos (hg n List.mem_cons_self)]
      exact ih g fun m hm => hg m (List.mem_cons_of_mem _ hm)
  have hempty : tryCreateCacheDir env (some root) (some s.inputDir) (some s.url) s.updatedAt [] = .ok (dir, []) := by rw [hdir]; rfl
  unfold runSession at h
  rw [hempty] at h
  simp only [Except.bind] at h
  have hix : fetchIndex true (.ok (remote s.url s.updatedAt ["index.json"])) dir [] = .ok [(dir ++ ["index.json"], remote s.url s.updatedAt ["index.json"])] := rfl
  rw [hix] at h
  simp only [Except.map, Except.ok.injEq] at h
  obtain ⟨i1, i2, i3⟩ := hloop s.files [(dir ++ ["index.json"], remote s.url s.updatedAt ["index.json"])] (by
    intro e he
    rw [List.mem_singleton.1 he]
    exact List.prefix_append _ _)
  rw [h] at i1 i2 i3
  have hfile : ∀ n ∈ ["index.json"] :: s.files, fs.isFile (dir ++ n) = true := by
    intro n hn
    unfold LocalFs.isFile
    rw [List.any_eq_true]
    rcases List.mem_cons.1 hn with rfl | hn
    · exact ⟨_, i2 _ (List.mem_singleton.2 rfl), by simp⟩
    · obtain ⟨e, he, hp⟩ := i3 n hn
      exact ⟨e, he, by simp [hp]⟩
  have hre := c58_reuse env (some root) (some s.inputDir) (some s.url) s.updatedAt fs (by
    intro e he _
    rw [← hdir]
    exact i1 e he)
  unfold runSession
  rw [hre, ← hdir]
  simp only [Except.bind]
  unfold fetchIndex
  rw [if_pos (hfile ["index.json"] List.mem_cons_self)]
  simp only [Except.map]
  rw [hkeep s.files fs fun n hn => hfile n (List.mem_cons_of_mem _ hn)]

/-- **C58, no time in the index.** An index without `updated_at`, such as one written by `merge_datasets` or a MosaicML index, gives a version by the name of the dataset only: when it is
written again with other data, the old index and the old chunks are still read. -/
theorem c58_no_timestamp : ∃ (env : CacheDirEnv) (old new : String → String → List String → Bytes) (s : CacheSession) (fs : LocalFs),
    readUpdatedAt none true (.ok none) = .ok s.updatedAt ∧ runSession env (some ["c"]) old [] s = .ok fs ∧ runSession env (some ["c"]) new fs s = .ok fs ∧
    (∀ e ∈ fs, e.2 = [1]) ∧ fs ≠ [] ∧ ∀ u v n, new u v n = [2] := by
  have h : runSession ⟨id, false, ["home"], ["cache"]⟩ (some ["c"]) (fun _ _ _ => [1]) [] ⟨"s3://a", "s3://a", "0", [["chunk-0-0.bin"]]⟩ =
      .ok [(["c", "s3://a", "s3://a", "index.json"], [1]), (["c", "s3://a", "s3://a", "chunk-0-0.bin"], [1])] := by rfl
  exact ⟨⟨id, false, ["home"], ["cache"]⟩, fun _ _ _ => [1], fun _ _ _ => [2], ⟨"s3://a", "s3://a", "0", [["chunk-0-0.bin"]]⟩, _, rfl, h,
    c58_second_session _ _ _ (fun _ _ _ => [2]) _ _ h, by decide, by decide, fun _ _ _ => rfl⟩

/-- **C58, a dataset in use.** A job that opens another version of a dataset removes all files of the version that a running job is reading. -/
theorem c58_running_job (env : CacheDirEnv) (root : List String) (inputDir url : String) (v w : String) (hw : w ≠ "0") (hvw : v ≠ w)
    (fs fs' : LocalFs) (dir : List String) (e : List String × Bytes) (he : e ∈ fs) (hp : root ++ [env.md5 url, v] <+: e.1)
    (h : tryCreateCacheDir env (some root) (some inputDir) (some url) w fs = .ok (dir, fs')) :
    ∀ x ∈ fs', ¬ root ++ [env.md5 url, v] <+: x.1 := by
  obtain ⟨h1, _, _, h4⟩ := c58_create env (some root) (some inputDir) (some url) w fs fs' dir h
  have htop : env.top (some root) (some url) = root ++ [env.md5 url] := rfl
  have hver : env.version (some inputDir) w = w := by simp [CacheDirEnv.version, hw]
  rw [htop] at h1 h4
  rw [hver] at h1
  have hpre : ∀ p : List String, root ++ [env.md5 url, v] <+: p → root ++ [env.md5 url] <+: p ∧ p ≠ root ++ [env.md5 url] ∧ ¬ dir <+: p := by
    rintro p ⟨r, rfl⟩
    refine ⟨⟨v :: r, by simp⟩, ?_, ?_⟩
    · intro heq
      have := congrArg List.length heq
      simp only [List.length_append, List.length_cons, List.length_nil] at this
      omega
    · rintro ⟨r', hr'⟩
      rw [h1] at hr'
      simp only [List.append_assoc, List.append_cancel_left_eq, List.cons_append, List.nil_append, List.cons.injEq, true_and] at hr'
      exact hvw hr'.1.symm
  intro x hx hxp
  exact h4 ⟨e, he, hpre e.1 hp⟩ x hx (hpre x.1 hxp).1

example : ∃ fs' dir, tryCreateCacheDir ⟨id, false, ["home"], ["cache"]⟩ (some ["c"]) (some "s3://a") (some "s3://a") "2" [(["c", "s3://a", "1", "chunk-0-0.bin"], [1])] =
    .ok (dir, fs') ∧ fs' = [] := ⟨[], ["c", "s3://a", "2"], by rfl, rfl⟩

/-- **C58, no URL.** Directories without a URL, such as those of Google Cloud folders (C59), share the directory of the empty URL; opening one removes what another has there, and nothing is
fetched: reading raises. -/
theorem c58_without_url (env : CacheDirEnv) (cacheDir : Option (List String)) (a : String) (fs fs' : LocalFs) (dir : List String)
    (h : tryCreateCacheDir env cacheDir (some a) none "0" fs = .ok (dir, fs')) (hempty : ∀ e ∈ fs, ¬ dir <+: e.1) :
    dir = env.top cacheDir none ++ [env.md5 a] ∧ ∃ e, fetchIndex false (.error .fileNotFound) dir fs' = .error e := by
  obtain ⟨h1, h2, h3, _⟩ := c58_create env cacheDir (some a) none "0" fs fs' dir h
  refine ⟨h1, ?_⟩
  have hno : fs'.isFile (dir ++ ["index.json"]) = false := by
    rw [Bool.eq_false_iff]
    intro hf
    unfold LocalFs.isFile at hf
    rw [List.any_eq_true] at hf
    obtain ⟨e, he, hp⟩ := hf
    have hp : e.1 = dir ++ ["index.json"] := by simpa using hp
    have ht : env.top cacheDir none <+: e.1 := by rw [hp, h1]; exact ⟨[env.version (some a) "0", "index.json"], by simp⟩
    have hne : e.1 ≠ env.top cacheDir none := by
      rw [hp, h1]
      intro heq
      have := congrArg List.length heq
      simp only [List.length_append, List.length_cons, List.length_nil] at this
      omega
    exact hempty e (h3 e he ht hne).2 (by rw [hp]; exact List.prefix_append _ _)
  unfold fetchIndex
  rw [hno]
  simp only [Bool.false_eq_true, if_false]
  split <;> exact ⟨_, rfl⟩

/-- **C58, a path of one's own.** With `Dir(path=…, url=…)` the path is used as it is; an index that is there is never compared with the one at the URL. -/
theorem c58_own_path (p : PathStr) (hp : p ≠ []) (h : startsWith "/teamspace/" p = false) (fetched : Py Bytes) (dir : List String) (fs : LocalFs)
    (hi : fs.isFile (dir ++ ["index.json"]) = true) : shouldReplacePath (some p) = false ∧ fetchIndex true fetched dir fs = .ok fs := by
  constructor
  · unfold shouldReplacePath
    simp only [hp, decide_false, Bool.false_or]
    rw [List.any_eq_false]
    intro q hq hs
    have : startsWith "/teamspace/" p = true := by
      unfold startsWith at hs ⊢
      rw [List.isPrefixOf_iff_prefix] at hs ⊢
      refine List.IsPrefix.trans ?_ hs
      rw [← List.isPrefixOf_iff_prefix]
      simp only [List.mem_cons, List.not_mem_nil, or_false] at hq
      rcases hq with rfl | rfl | rfl | rfl | rfl <;> decide
    rw [h] at this
    cases this
  · unfold fetchIndex
    rw [if_pos hi]

/-- **C58, processes at the same time.** If the version is cached and nothing else is, any number of processes may open it at the same time: nothing is removed and none fails. -/
theorem c58_current_safe (version : String) (files : List String) (s : OpenState) (h : OpenReach version (some [(version, files)]) s) :
    (∃ more, s.top = some [(version, files ++ more)]) ∧ ∀ i, s.pc i ≠ .remove ∧ s.pc i ≠ .failed := by
  induction h with
  | init => exact ⟨⟨[], by simp⟩, fun i => ⟨by simp, by simp⟩⟩
  | @step s t hr hst ih =>
    obtain ⟨⟨more, hm⟩, hpc⟩ := ih
    have hat : ∀ (i : Nat) (p : OpenPc) (s' : OpenState), s'.pc = s.pc → p ≠ .remove → p ≠ .failed → ∀ j, (s'.at i p).pc j ≠ .remove ∧ (s'.at i p).pc j ≠ .failed := by
      intro i p s' hs' h1 h2 j
      unfold OpenState.at
      simp only [hs']
      split
      · exact ⟨h1, h2⟩
      · exact hpc j
    cases hst with
    | absent i _ hn => rw [hm] at hn; cases hn
    | present i _ _ => exact ⟨⟨more, hm⟩, hat i _ s rfl (by simp) (by simp)⟩
    | listed i l _ hl =>
      rw [hm] at hl
      cases hl
      exact ⟨⟨more, hm⟩, hat i _ s rfl (by simp) (by simp)⟩
    | listFails i _ hn => rw [hm] at hn; cases hn
    | removes i hp _ => exact absurd hp (hpc i).1
    | removeFails i hp _ => exact absurd hp (hpc i).1
    | makes i _ => exact ⟨⟨more, by show some (s.top.getD []) = _; rw [hm]; rfl⟩, hat i _ { s with top := some (s.top.getD []) } rfl (by simp) (by simp)⟩
    | makesVersion i l _ hl =>
      rw [hm] at hl
      cases hl
      refine ⟨⟨more, ?_⟩, hat i _ { s with top := _ } rfl (by simp) (by simp)⟩
      simp [OpenState.at]
    | makeFails i _ hn => rw [hm] at hn; cases hn
    | write i l file _ hl =>
      rw [hm] at hl
      cases hl
      exact ⟨⟨more ++ [file], by simp⟩, hpc⟩

example : ∃ s, OpenReach "2" (some [("2", ["index.json"])]) s ∧ s.pc 0 = .opened ∧ s.pc 1 = .list := by
  have s0 : OpenReach "2" (some [("2", ["index.json"])]) ⟨some [("2", ["index.json"])], fun _ => .start⟩ := .init
  have s1 := s0.step (.present _ 0 rfl (by simp))
  have s2 := s1.step (.listed _ 0 _ rfl rfl)
  have s3 := s2.step (.makes _ 0 rfl)
  have s4 := s3.step (.makesVersion _ 0 _ rfl rfl)
  have s5 := s4.step (.present _ 1 rfl (by simp [OpenState.at]))
  exact ⟨_, s5, rfl, rfl⟩

/-- **C58, processes at the same time after an update.** If an older version is cached, one of two processes that open the new version may remove the directory after the other has
opened it and downloaded its index. -/
theorem c58_update_race : ∃ s t, OpenReach "2" (some [("1", ["index.json"])]) s ∧ s.pc 0 = .opened ∧ s.top = some [("2", ["index.json"])] ∧
    OpenStep "2" s t ∧ t.pc 0 = .opened ∧ t.top = none := by
  have s0 : OpenReach "2" (some [("1", ["index.json"])]) ⟨some [("1", ["index.json"])], fun _ => .start⟩ := .init
  have s1 := s0.step (.present _ 0 rfl (by simp))
  have s2 := s1.step (.listed _ 0 _ rfl rfl)
  have s3 := s2.step (.present _ 1 rfl (by simp [OpenState.at]))
  have s4 := s3.step (.listed _ 1 _ rfl rfl)
  have s5 := s4.step (.removes _ 0 rfl (by simp [OpenState.at]))
  have s6 := s5.step (.makes _ 0 rfl)
  have s7 := s6.step (.makesVersion _ 0 _ rfl rfl)
  have s8 := s7.step (.write _ 0 _ "index.json" rfl rfl)
  exact ⟨_, _, s8, rfl, rfl, .removes _ 1 rfl (by simp [OpenState.at]), rfl, rfl⟩

/-- **C58, processes at the same time in a new cache.** The same may happen when nothing was cached: a process that finds the directory of the URL still empty removes it later. -/
theorem c58_fresh_race : ∃ s t, OpenReach "2" none s ∧ s.pc 0 = .opened ∧ s.top = some [("2", ["index.json"])] ∧
    OpenStep "2" s t ∧ t.pc 0 = .opened ∧ t.top = none := by
  have s0 : OpenReach "2" none ⟨none, fun _ => .start⟩ := .init
  have s1 := s0.step (.absent _ 0 rfl rfl)
  have s2 := s1.step (.makes _ 0 rfl)
  have s3 := s2.step (.present _ 1 rfl (by simp [OpenState.at]))
  have s4 := s3.step (.listed _ 1 [] rfl rfl)
  have s5 := s4.step (.makesVersion _ 0 [] rfl rfl)
  have s6 := s5.step (.write _ 0 _ "index.json" rfl rfl)
  exact ⟨_, _, s6, rfl, rfl, .removes _ 1 rfl (by simp [OpenState.at]), rfl, rfl⟩

/-- **C58, a change of the index is noticed.** The time is read from the index at the path, or else from the one at the URL. If it is `new`, the dataset gets the directory
`new` below that of its URL, in the given cache directory or in the default one of the machine; if files of another version `old` were cached there, none of them is left. -/
theorem c58_detects (env : CacheDirEnv) (cacheDir : Option (List String)) (inputDir url old new : String) (hn : new ≠ "0") (hon : old ≠ new)
    (atPath : Option (Option String)) (fetched : Py (Option String))
    (hat : atPath = some (some new) ∨ (atPath = none ∧ fetched = .ok (some new))) (root : List String)
    (hroot : cacheDir = some root ∨ (cacheDir = none ∧ env.inStudio = true ∧ root = env.studio) ∨ (cacheDir = none ∧ env.inStudio = false ∧ root = env.home))
    (fs fs' : LocalFs) (dir : List String) (file : List String × Bytes) (hfile : file ∈ fs) (name : List String)
    (hpath : file.1 = root ++ [env.md5 url, old] ++ name)
    (h : ((readUpdatedAt atPath true fetched).bind fun u => tryCreateCacheDir env cacheDir (some inputDir) (some url) u fs) = .ok (dir, fs')) :
    dir = root ++ [env.md5 url, new] ∧ ∀ e ∈ fs', ¬ root ++ [env.md5 url] <+: e.1 := by
  have hu : readUpdatedAt atPath true fetched = .ok new := by
    rcases hat with rfl | ⟨rfl, rfl⟩ <;> rfl
  rw [hu] at h
  have htop : env.top cacheDir (some url) = root ++ [env.md5 url] := by
    unfold CacheDirEnv.top
    rcases hroot with rfl | ⟨rfl, hs, rfl⟩ | ⟨rfl, hs, rfl⟩
    · rfl
    · rw [hs]; rfl
    · rw [hs]; rfl
  have hver : env.version (some inputDir) new = new := by simp [CacheDirEnv.version, hn]
  obtain ⟨h1, _, _, h4⟩ := c58_create env cacheDir (some inputDir) (some url) new fs fs' dir h
  rw [htop, hver] at h1
  rw [htop] at h4
  have hd : dir = root ++ [env.md5 url, new] := by rw [h1]; simp
  refine ⟨hd, h4 ⟨file, hfile, ?_, ?_, ?_⟩⟩
  · rw [hpath]; exact ⟨old :: name, by simp⟩
  · rw [hpath]
    intro heq
    have := congrArg List.length heq
    simp only [List.length_append, List.length_cons, List.length_nil] at this
    omega
  · rw [hpath, hd]
    rintro ⟨r, hr⟩
    simp only [List.append_assoc, List.append_cancel_left_eq, List.cons_append, List.nil_append, List.cons.injEq, true_and] at hr
    exact hon hr.1.symm

example : ((readUpdatedAt none true (.ok (some "2"))).bind fun u =>
    tryCreateCacheDir ⟨id, true, ["home"], ["cache", "chunks"]⟩ none (some "s3://a") (some "s3://a") u [(["cache", "chunks", "s3://a", "1", "chunk-0-0.bin"], [1])]) =
    .ok (["cache", "chunks", "s3://a", "2"], []) := by rfl

/-- **C58, an index given by the user** (`index_path`) may be the file itself or the folder in which `index.json` is. -/
theorem c58_index_path (fs : LocalFs) (p : List String) (b : Bytes)
    (hone : ∀ e ∈ fs, ∀ f ∈ fs, e.1 = f.1 → e = f) :
    ((p, b) ∈ fs → copyIndex fs p = .ok b) ∧
    ((p ++ ["index.json"], b) ∈ fs → (∀ c, (p, c) ∉ fs) → copyIndex fs p = .ok b) ∧
    ((∀ c, (p, c) ∉ fs) → (∀ c, (p ++ ["index.json"], c) ∉ fs) → copyIndex fs p = .error .fileNotFound) := by
  have hfind : ∀ q c, (q, c) ∈ fs → fs.find? (fun e => e.1 == q) = some (q, c) := by
    intro q c hq
    cases hf : fs.find? (fun e => e.1 == q) with
    | none =>
      rw [List.find?_eq_none] at hf
      exact absurd (by simp) (hf _ hq)
    | some e =>
      have h1 := List.mem_of_find?_eq_some hf
      have h2 := List.find?_some hf
      rw [hone e h1 _ hq (by simpa using h2)]
  have hisf : ∀ q, fs.isFile q = true ↔ ∃ c, (q, c) ∈ fs := by
    intro q
    unfold LocalFs.isFile
    rw [List.any_eq_true]
    constructor
    · rintro ⟨e, he, hq⟩
      exact ⟨e.2, by have : e.1 = q := by simpa using hq
                     rw [← this]; exact he⟩
    · rintro ⟨c, hc⟩
      exact ⟨_, hc, by simp⟩
  refine ⟨?_, ?_, ?_⟩
  · intro hp
    unfold copyIndex
    rw [(hisf p).2 ⟨b, hp⟩]
    simp only [Bool.not_true, Bool.and_false, Bool.false_eq_true, if_false]
    rw [hfind p b hp]
  · intro hp hnot
    unfold copyIndex
    have h1 : fs.isFile p = false := by
      rw [Bool.eq_false_iff]
      intro h
      obtain ⟨c, hc⟩ := (hisf p).1 h
      exact hnot c hc
    have h2 : fs.has p = true := by
      unfold LocalFs.has
      rw [List.any_eq_true]
      exact ⟨_, hp, List.isPrefixOf_iff_prefix.2 (List.prefix_append _ _)⟩
    rw [h1, h2]
    simp only [Bool.not_false, Bool.and_self, if_true]
    rw [hfind _ b hp]
  · intro h1 h2
    unfold copyIndex
    have hno : ∀ q, (∀ c, (q, c) ∉ fs) → fs.find? (fun e => e.1 == q) = none := by
      intro q hq
      rw [List.find?_eq_none]
      intro e he h
      have : e.1 = q := by simpa using h
      exact hq e.2 (by rw [← this]; exact he)
    simp only
    rw [hno]
    intro c
    split
    · exact h2 c
    · exact h1 c

example : copyIndex [(["a", "index.json"], [1]), (["b"], [2])] ["a"] = .ok [1] ∧ copyIndex [(["a", "index.json"], [1]), (["b"], [2])] ["b"] = .ok [2] := by decide +kernel

end LitData.Props
