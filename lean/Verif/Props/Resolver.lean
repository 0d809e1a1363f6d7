import Verif.Model.Resolver
import Verif.Props.Append
import Verif.Props.InputFiles

/-!
Properties of the resolution of directories (C59).
-/

namespace LitData.Props

open LitData

theorem splitChar_parts (c : Char) (a : PathStr) (parts : List PathStr) (ha : c ∉ a) (hp : ∀ p ∈ parts, c ∉ p) :
    splitChar c (a ++ parts.flatMap (c :: ·)) = a :: parts := by
  induction parts generalizing a with
  | nil => simpa using splitChar_none c a ha
  | cons p parts ih =>
    rw [List.flatMap_cons, List.cons_append, splitChar_append c a _ ha, ih p (hp p List.mem_cons_self) fun q hq => hp q (List.mem_cons_of_mem _ hq)]

theorem joinPath_plain (a b : PathStr) (ha : a ≠ []) (he : a.getLast? ≠ some '/') (hb : '/' ∉ b) : joinPath a b = a ++ '/' :: b := by
  unfold joinPath
  rw [if_neg, if_neg]
  · rintro (h | h)
    · exact ha h
    · exact he h
  · intro h
    exact hb (List.mem_of_mem_head? h)

theorem joinPaths_plain (a : PathStr) (parts : List PathStr) (ha : a ≠ []) (he : a.getLast? ≠ some '/') (hp : ∀ p ∈ parts, p ≠ [] ∧ '/' ∉ p) :
    joinPaths a parts = a ++ parts.flatMap ('/' :: ·) := by
  induction parts generalizing a with
  | nil => simp [joinPaths]
  | cons p parts ih =>
    obtain ⟨h1, h2⟩ := hp p List.mem_cons_self
    have : joinPaths a (p :: parts) = joinPaths (joinPath a p) parts := rfl
    rw [this, joinPath_plain a p ha he h2, ih]
    · simp
    · simp
    · rw [List.getLast?_append]
      obtain ⟨q, x, rfl⟩ : ∃ q x, p = q ++ [x] := ⟨p.dropLast, p.getLast h1, (List.dropLast_concat_getLast h1).symm⟩
      simp only [← List.cons_append, List.getLast?_append, List.getLast?_singleton, Option.some_or]
      intro h
      cases h
      exact h2 (by simp)
    · exact fun q hq => hp q (List.mem_cons_of_mem _ hq)

/-- A source with or without a slash at its end. -/
theorem joinPaths_source (base : PathStr) (slash : Bool) (parts : List PathStr) (hb : base ≠ []) (he : base.getLast? ≠ some '/')
    (hp : ∀ p ∈ parts, p ≠ [] ∧ '/' ∉ p) (hne : parts ≠ []) :
    joinPaths (base ++ if slash then ['/'] else []) parts = base ++ parts.flatMap ('/' :: ·) := by
  cases slash with
  | false => simpa using joinPaths_plain base parts hb he hp
  | true =>
    cases parts with
    | nil => exact absurd rfl hne
    | cons p parts =>
      obtain ⟨h1, h2⟩ := hp p List.mem_cons_self
      have hj : joinPath (base ++ ['/']) p = joinPath base p := by
        rw [joinPath_plain base p hb he h2]
        unfold joinPath
        have hh : ¬ p.head? = some '/' := fun h => h2 (List.mem_of_mem_head? h)
        rw [if_neg hh, if_pos (.inr (by simp))]
        simp
      have e1 : joinPaths (base ++ ['/']) (p :: parts) = joinPaths (joinPath (base ++ ['/']) p) parts := rfl
      have e2 : joinPaths base (p :: parts) = joinPaths (joinPath base p) parts := rfl
      rw [if_pos rfl, e1, hj, ← e2, joinPaths_plain base _ hb he hp]

/-- **C59, remote directories.** A URL is taken as it is. -/
theorem c59_remote (env : CloudEnv) (scheme : String) (hs : scheme ∈ ["s3://", "gs://", "azure://", "hf://", "local:"]) (rest : PathStr) :
    resolveDir env (.text (scheme.toList ++ rest)) = .ok ⟨none, some (scheme.toList ++ rest)⟩ := by
  have : isRemote (scheme.toList ++ rest) = true := by
    unfold isRemote
    rw [List.any_eq_true]
    refine ⟨scheme, hs, ?_⟩
    unfold startsWith
    rw [List.isPrefixOf_iff_prefix]
    exact List.prefix_append _ _
  unfold resolveDir
  simp only [this, if_true]

/-- **C59, local directories.** A path that leads nowhere into `/teamspace` or `/.project` is made absolute and has no URL. -/
theorem c59_local (env : CloudEnv) (s : PathStr) (hr : isRemote s = false) (ht : hasTimeTemplate s = false)
    (h1 : startsWith "/teamspace/" (env.absolute s) = false) (h2 : startsWith "/.project" (env.absolute s) = false) :
    resolveDir env (.text s) = .ok ⟨some (env.absolute s), none⟩ := by
  have hn : ∀ q : String, "/teamspace/".toList <+: q.toList → startsWith q (env.absolute s) = false := by
    intro q hq
    rw [Bool.eq_false_iff]
    intro h
    have : startsWith "/teamspace/" (env.absolute s) = true := by
      unfold startsWith at h ⊢
      rw [List.isPrefixOf_iff_prefix] at h ⊢
      exact hq.trans h
    rw [h1] at this
    cases this
  unfold resolveDir
  simp only [hr, Bool.false_eq_true, if_false]
  have e : resolveTimeTemplate env.strftime s = s := by unfold resolveTimeTemplate; rw [ht]; rfl
  rw [e, hn "/teamspace/studios/this_studio" (List.isPrefixOf_iff_prefix.1 (by decide)), h2]
  simp only [Bool.false_eq_true, if_false]
  unfold resolveAbsolute
  rw [hn "/teamspace/studios" (List.isPrefixOf_iff_prefix.1 (by decide)), hn "/teamspace/s3_connections" (List.isPrefixOf_iff_prefix.1 (by decide)), hn "/teamspace/s3_folders" (List.isPrefixOf_iff_prefix.1 (by decide)),
    hn "/teamspace/datasets" (List.isPrefixOf_iff_prefix.1 (by decide))]
  simp

theorem joinPath_ne (a b : PathStr) (ha : a ≠ []) : joinPath a b ≠ [] := by
  unfold joinPath
  split
  · rename_i h
    intro e
    rw [e] at h
    cases h
  · split <;> simp [ha]

theorem joinPaths_ne (a : PathStr) (parts : List PathStr) (ha : a ≠ []) : joinPaths a parts ≠ [] := by
  induction parts generalizing a with
  | nil => exact ha
  | cons p parts ih => exact ih (joinPath a p) (joinPath_ne a p ha)

theorem mem_of_lookup {α β : Type} [BEq α] {k : α} {v : β} {l : List (α × β)} (h : l.lookup k = some v) : ∃ k', (k', v) ∈ l := by
  induction l with
  | nil => cases h
  | cons e l ih =>
    obtain ⟨a, b⟩ := e
    rw [List.lookup_cons] at h
    split at h
    · cases h
      exact ⟨a, List.mem_cons_self⟩
    · obtain ⟨k', hk⟩ := ih h
      exact ⟨k', List.mem_cons_of_mem _ hk⟩

/-- **C59, given directories.** Resolving what was resolved changes nothing. -/
theorem c59_idempotent (env : CloudEnv) (hs : ∀ e ∈ env.awsSources ++ env.folderSources, e.2 ≠ []) (arg : DirArg) (d : UserDir)
    (h : resolveDir env arg = .ok d) (hp : d.path ≠ some []) : resolveDir env (.dir d) = .ok d := by
  have hf : ∀ o : Option PathStr, o ≠ some [] → nonEmpty o = o := by
    intro o ho
    cases o with
    | none => rfl
    | some t =>
      have : t ≠ [] := fun e => ho (by rw [e])
      simp [nonEmpty, Option.filter, this]
  have hne : ∀ o : Option PathStr, nonEmpty o ≠ some [] := by
    intro o
    cases o with
    | none => exact fun h => by cases h
    | some t => simp [nonEmpty, Option.filter]
  have hconn : ∀ (sources : List (PathStr × PathStr)) (pr : Option PathStr) (q : PathStr), (∀ e ∈ sources, e.2 ≠ []) →
      resolveConnection pr sources q = .ok d → d.url ≠ some [] := by
    intro sources pr q hsrc hr
    unfold resolveConnection at hr
    split at hr
    · cases hr
    · split at hr
      · cases hr
      · rename_i source hl
        cases hr
        obtain ⟨k, hk⟩ := mem_of_lookup hl
        have := joinPaths_ne source ((splitChar '/' q).drop 4) (hsrc _ hk)
        simpa using this
  have hurl : d.url ≠ some [] := by
    cases arg with
    | none => cases h; simp
    | other => cases h
    | dir d' => cases h; exact hne _
    | text s =>
      unfold resolveDir at h
      simp only at h
      split at h
      · rename_i hr
        cases h
        intro e
        have : s = [] := by simpa using e
        rw [this] at hr
        revert hr
        decide
      · split at h
        · cases h; simp
        · generalize (if startsWith "/.project" (env.absolute (resolveTimeTemplate env.strftime s)) = true then resolveTimeTemplate env.strftime s
            else env.absolute (resolveTimeTemplate env.strftime s)) = q at h
          unfold resolveAbsolute at h
          split at h
          · unfold resolveStudio at h
            split at h
            · cases h
            · cases h
            · split at h
              · cases h
              · split at h
                · cases h
                · cases h
                  simp [joinPaths_ne]
          split at h
          · exact hconn _ _ _ (fun e he => hs e (List.mem_append_left _ he)) h
          split at h
          · exact hconn _ _ _ (fun e he => hs e (List.mem_append_right _ he)) h
          split at h
          · unfold resolveDatasets at h
            split at h
            · cases h
            · cases h
            · cases h
            · split at h
              · cases h
              · split at h
                · cases h
                · cases h
                  simp [joinPaths_ne]
          cases h
          simp
  unfold resolveDir
  simp only
  rw [hf _ hp, hf _ hurl]

/-- The absolute path of a folder in a connection, folder or Studio: `kind` is for instance `/teamspace/s3_connections`, `name` the connection and `parts` the
folders below. -/
def teamspacePath (kind : String) (name : PathStr) (parts : List PathStr) : PathStr := kind.toList ++ ('/' :: name) ++ parts.flatMap ('/' :: ·)

theorem teamspacePath_split (kind : String) (k : PathStr) (hk : kind.toList = "/teamspace/".toList ++ k) (hks : '/' ∉ k) (name : PathStr) (parts : List PathStr)
    (hn : '/' ∉ name) (hp : ∀ p ∈ parts, '/' ∉ p) : splitChar '/' (teamspacePath kind name parts) = [[], "teamspace".toList, k, name] ++ parts := by
  have e : teamspacePath kind name parts = [] ++ ("teamspace".toList :: k :: name :: parts).flatMap ('/' :: ·) := by
    unfold teamspacePath
    rw [hk]
    simp
  rw [e, splitChar_parts '/' [] _ (by simp)]
  · rfl
  · intro p h
    simp only [List.mem_cons] at h
    rcases h with rfl | rfl | rfl | h
    · decide
    · exact hks
    · exact hn
    · exact hp p h

theorem teamspacePath_starts (kind q : String) (name : PathStr) (parts : List PathStr) (h : startsWith q kind.toList = true) :
    startsWith q (teamspacePath kind name parts) = true := by
  unfold startsWith at h ⊢
  rw [List.isPrefixOf_iff_prefix] at h ⊢
  unfold teamspacePath
  rw [List.append_assoc]
  exact h.trans (List.prefix_append _ _)

theorem teamspacePath_not_starts (kind q : String) (name : PathStr) (parts : List PathStr) (hlen : q.toList.length ≤ kind.toList.length)
    (h : startsWith q kind.toList = false) : startsWith q (teamspacePath kind name parts) = false := by
  rw [Bool.eq_false_iff] at h ⊢
  intro h'
  apply h
  unfold startsWith at h' ⊢
  rw [List.isPrefixOf_iff_prefix] at h' ⊢
  unfold teamspacePath at h'
  rw [List.append_assoc] at h'
  exact List.prefix_of_prefix_length_le h' (List.prefix_append _ _) hlen

theorem startsWith_shorter (q q' : String) (h : q.toList <+: q'.toList) (p : PathStr) (hq : startsWith q p = false) : startsWith q' p = false := by
  rw [Bool.eq_false_iff] at hq ⊢
  intro h'
  apply hq
  unfold startsWith at h' ⊢
  rw [List.isPrefixOf_iff_prefix] at h' ⊢
  exact h.trans h'

theorem resolveDir_absolute (env : CloudEnv) (s : PathStr) (hr : isRemote s = false) (ht : hasTimeTemplate s = false)
    (h1 : startsWith "/teamspace/studios/this_studio" (env.absolute s) = false) (h2 : startsWith "/.project" (env.absolute s) = false) :
    resolveDir env (.text s) = resolveAbsolute env (env.absolute s) := by
  unfold resolveDir
  have e : resolveTimeTemplate env.strftime s = s := by unfold resolveTimeTemplate; rw [ht]; rfl
  simp only [hr, Bool.false_eq_true, if_false, e, h1, h2]

theorem resolveConnection_spec (project : PathStr) (sources : List (PathStr × PathStr)) (kind : String) (k : PathStr)
    (hk : kind.toList = "/teamspace/".toList ++ k) (hks : '/' ∉ k) (name base : PathStr) (slash : Bool)
    (hsrc : sources.lookup name = some (base ++ if slash then ['/'] else [])) (hb : base ≠ []) (he : base.getLast? ≠ some '/')
    (hn : '/' ∉ name) (parts : List PathStr) (hp : ∀ p ∈ parts, p ≠ [] ∧ '/' ∉ p) (hne : parts ≠ []) :
    resolveConnection (some project) sources (teamspacePath kind name parts) =
      .ok ⟨some (teamspacePath kind name parts), some (base ++ parts.flatMap ('/' :: ·))⟩ := by
  have hsp := teamspacePath_split kind k hk hks name parts hn fun p h => (hp p h).2
  unfold resolveConnection
  rw [hsp]
  have e1 : ([[], "teamspace".toList, k, name] ++ parts).getD 3 [] = name := rfl
  have e2 : ([[], "teamspace".toList, k, name] ++ parts).drop 4 = parts := rfl
  rw [e1, e2]
  simp only [hsrc]
  rw [joinPaths_source base slash parts hb he hp hne]

/-- **C59, connections.** A folder of a connection is at the same place below the source of the connection, whether or not this ends with a slash. -/
theorem c59_connection (env : CloudEnv) (project : PathStr) (hpr : env.projectId = some project) (name base : PathStr) (slash : Bool)
    (hsrc : env.awsSources.lookup name = some (base ++ if slash then ['/'] else [])) (hb : base ≠ []) (he : base.getLast? ≠ some '/')
    (hn : '/' ∉ name) (parts : List PathStr) (hp : ∀ p ∈ parts, p ≠ [] ∧ '/' ∉ p) (hne : parts ≠ []) (s : PathStr) (hr : isRemote s = false)
    (ht : hasTimeTemplate s = false) (habs : env.absolute s = teamspacePath "/teamspace/s3_connections" name parts) :
    resolveDir env (.text s) =
      .ok ⟨some (teamspacePath "/teamspace/s3_connections" name parts), some (base ++ parts.flatMap ('/' :: ·))⟩ := by
  have hst := teamspacePath_not_starts "/teamspace/s3_connections" "/teamspace/studios" name parts (by decide) (by decide)
  rw [resolveDir_absolute env s hr ht, habs]
  · unfold resolveAbsolute
    rw [hst, teamspacePath_starts _ "/teamspace/s3_connections" name parts (by decide),
      teamspacePath_split "/teamspace/s3_connections" "s3_connections".toList (by decide) (by decide) name parts hn fun p h => (hp p h).2, hpr,
      resolveConnection_spec project _ "/teamspace/s3_connections" "s3_connections".toList (by decide) (by decide) name base slash hsrc hb he hn parts hp hne]
    simp
  · rw [habs]
    exact startsWith_shorter "/teamspace/studios" _ (List.isPrefixOf_iff_prefix.1 (by decide)) _ hst
  · rw [habs]
    exact teamspacePath_not_starts _ _ name parts (by decide) (by decide)

/-- **C59, folders.** The same for a folder of the Teamspace. -/
theorem c59_folder (env : CloudEnv) (project : PathStr) (hpr : env.projectId = some project) (name base : PathStr) (slash : Bool)
    (hsrc : env.folderSources.lookup name = some (base ++ if slash then ['/'] else [])) (hb : base ≠ []) (he : base.getLast? ≠ some '/')
    (hn : '/' ∉ name) (parts : List PathStr) (hp : ∀ p ∈ parts, p ≠ [] ∧ '/' ∉ p) (hne : parts ≠ []) (s : PathStr) (hr : isRemote s = false)
    (ht : hasTimeTemplate s = false) (habs : env.absolute s = teamspacePath "/teamspace/s3_folders" name parts) :
    resolveDir env (.text s) =
      .ok ⟨some (teamspacePath "/teamspace/s3_folders" name parts), some (base ++ parts.flatMap ('/' :: ·))⟩ := by
  have hst := teamspacePath_not_starts "/teamspace/s3_folders" "/teamspace/studios" name parts (by decide) (by decide)
  have hc := teamspacePath_not_starts "/teamspace/s3_folders" "/teamspace/s3_c" name parts (by decide) (by decide)
  rw [resolveDir_absolute env s hr ht, habs]
  · unfold resolveAbsolute
    rw [hst, startsWith_shorter "/teamspace/s3_c" "/teamspace/s3_connections" (List.isPrefixOf_iff_prefix.1 (by decide)) _ hc,
      teamspacePath_starts _ "/teamspace/s3_folders" name parts (by decide),
      teamspacePath_split "/teamspace/s3_folders" "s3_folders".toList (by decide) (by decide) name parts hn fun p h => (hp p h).2, hpr,
      resolveConnection_spec project _ "/teamspace/s3_folders" "s3_folders".toList (by decide) (by decide) name base slash hsrc hb he hn parts hp hne]
    simp
  · rw [habs]
    exact startsWith_shorter "/teamspace/studios" _ (List.isPrefixOf_iff_prefix.1 (by decide)) _ hst
  · rw [habs]
    exact teamspacePath_not_starts _ _ name parts (by decide) (by decide)

/-- **C59, datasets.** A dataset of the Teamspace is below the folder `datasets` of the project in the bucket of the cluster of the running Studio. -/
theorem c59_dataset (env : CloudEnv) (cluster project studio bucket : PathStr) (hcl : env.clusterId = some cluster) (hpr : env.projectId = some project)
    (hsid : env.studioId = some studio) (sp : CloudSpace) (hsp : env.spaces.filter (fun s => s.id == studio) = [sp])
    (hbk : env.clusters.lookup sp.clusterId = some bucket) (name : PathStr) (hn : name ≠ [] ∧ '/' ∉ name) (parts : List PathStr)
    (hp : ∀ p ∈ parts, p ≠ [] ∧ '/' ∉ p) (s : PathStr) (hr : isRemote s = false) (ht : hasTimeTemplate s = false)
    (habs : env.absolute s = teamspacePath "/teamspace/datasets" name parts) :
    resolveDir env (.text s) = .ok ⟨some (teamspacePath "/teamspace/datasets" name parts),
      some ("s3://".toList ++ bucket ++ "/projects/".toList ++ project ++ "/datasets".toList ++ (name :: parts).flatMap ('/' :: ·))⟩ := by
  have hst := teamspacePath_not_starts "/teamspace/datasets" "/teamspace/studios" name parts (by decide) (by decide)
  have hc := teamspacePath_not_starts "/teamspace/datasets" "/teamspace/s3_" name parts (by decide) (by decide)
  have hj := joinPaths_source ("s3://".toList ++ bucket ++ "/projects/".toList ++ project ++ "/datasets".toList) true (name :: parts) (by simp)
    (by rw [List.getLast?_append]; simp) (by
      intro p h
      rcases List.mem_cons.1 h with rfl | h
      · exact hn
      · exact hp p h) (by simp)
  rw [resolveDir_absolute env s hr ht, habs]
  · unfold resolveAbsolute
    rw [hst, startsWith_shorter "/teamspace/s3_" "/teamspace/s3_connections" (List.isPrefixOf_iff_prefix.1 (by decide)) _ hc,
      startsWith_shorter "/teamspace/s3_" "/teamspace/s3_folders" (List.isPrefixOf_iff_prefix.1 (by decide)) _ hc,
      teamspacePath_starts _ "/teamspace/datasets" name parts (by decide),
      teamspacePath_split "/teamspace/datasets" "datasets".toList (by decide) (by decide) name parts hn.2 fun p h => (hp p h).2]
    unfold resolveDatasets
    rw [teamspacePath_split "/teamspace/datasets" "datasets".toList (by decide) (by decide) name parts hn.2 fun p h => (hp p h).2]
    simp only [hcl, hpr, hsid, hsp, hbk]
    have e2 : ([[], "teamspace".toList, "datasets".toList, name] ++ parts).drop 3 = name :: parts := rfl
    rw [e2, ← hj]
    simp
  · rw [habs]
    exact startsWith_shorter "/teamspace/studios" _ (List.isPrefixOf_iff_prefix.1 (by decide)) _ hst
  · rw [habs]
    exact teamspacePath_not_starts _ _ name parts (by decide) (by decide)

/-- **C59, Studios.** A folder of another Studio is below its code in the bucket of its cluster. The Studio is the first that has the name, in any letter case, as its
name or as the name it is shown with. -/
theorem c59_studio (env : CloudEnv) (cluster project bucket : PathStr) (hcl : env.clusterId = some cluster) (hpr : env.projectId = some project)
    (name : PathStr) (hn : '/' ∉ name) (before after : List CloudSpace) (sp : CloudSpace) (hsp : env.spaces = before ++ sp :: after)
    (hm : (sp.name.map env.lower = some (env.lower name)) ∨ (sp.displayName.map env.lower = some (env.lower name)))
    (hbefore : ∀ x ∈ before, x.name.map env.lower ≠ some (env.lower name) ∧ x.displayName.map env.lower ≠ some (env.lower name))
    (hbk : env.clusters.lookup sp.clusterId = some bucket) (parts : List PathStr) (hp : ∀ p ∈ parts, p ≠ [] ∧ '/' ∉ p) (s : PathStr)
    (hr : isRemote s = false) (ht : hasTimeTemplate s = false) (habs : env.absolute s = teamspacePath "/teamspace/studios" name parts)
    (hthis : startsWith "/teamspace/studios/this_studio" (env.absolute s) = false) :
    resolveDir env (.text s) = .ok ⟨some (teamspacePath "/teamspace/studios" name parts),
      some ("s3://".toList ++ bucket ++ "/projects/".toList ++ project ++ "/cloudspaces/".toList ++ sp.id ++ "/code/content".toList ++
        parts.flatMap ('/' :: ·))⟩ := by
  have hmatch : ∀ x : CloudSpace, matchStudio env.lower name x = true ↔
      (x.name.map env.lower = some (env.lower name)) ∨ (x.displayName.map env.lower = some (env.lower name)) := by
    intro x
    unfold matchStudio
    cases x.name <;> cases x.displayName <;> simp
  have hfil : ∃ tail, env.spaces.filter (matchStudio env.lower name) = sp :: tail := by
    rw [hsp, List.filter_append, List.filter_cons, if_pos ((hmatch sp).2 hm), List.filter_eq_nil_iff.2]
    · exact ⟨_, rfl⟩
    · intro x hx h
      rcases (hmatch x).1 h with g | g
      · exact (hbefore x hx).1 g
      · exact (hbefore x hx).2 g
  obtain ⟨tail, hfil⟩ := hfil
  rw [resolveDir_absolute env s hr ht hthis, habs]
  · unfold resolveAbsolute
    rw [teamspacePath_starts _ "/teamspace/studios" name parts (by decide),
      teamspacePath_split "/teamspace/studios" "studios".toList (by decide) (by decide) name parts hn fun p h => (hp p h).2]
    unfold resolveStudio
    rw [teamspacePath_split "/teamspace/studios" "studios".toList (by decide) (by decide) name parts hn fun p h => (hp p h).2]
    have e1 : ([[], "teamspace".toList, "studios".toList, name] ++ parts).getD 3 [] = name := rfl
    have e2 : ([[], "teamspace".toList, "studios".toList, name] ++ parts).drop 4 = parts := rfl
    rw [e1, e2]
    simp only [hcl, hpr, hfil, hbk]
    rw [joinPaths_plain _ parts (by simp) (by rw [List.getLast?_append]; simp) hp]
    simp
  · rw [habs]
    exact teamspacePath_not_starts _ _ name parts (by decide) (by decide)

/-- An environment with one project, a connection `c`, a folder `f`, a cluster and two Studios. -/
def demoCloud : CloudEnv :=
  { absolute := id
    strftime := fun _ => "2025".toList
    lower := List.map Char.toLower
    clusterId := some "k".toList
    projectId := some "p".toList
    studioId := some "2".toList
    clusters := [("k".toList, "bucket".toList)]
    spaces := [⟨some "first".toList, "1".toList, some "Second".toList, "k".toList⟩, ⟨some "second".toList, "2".toList, some "Other".toList, "k".toList⟩]
    awsSources := [("c".toList, "s3://src/".toList)]
    folderSources := [("f".toList, "s3://fold".toList)] }

example : resolveDir demoCloud (.text "/teamspace/s3_connections/c/a/b".toList) =
    .ok ⟨some "/teamspace/s3_connections/c/a/b".toList, some "s3://src/a/b".toList⟩ :=
  c59_connection demoCloud "p".toList rfl "c".toList "s3://src".toList true rfl (by decide) (by decide) (by decide) ["a".toList, "b".toList] (by decide)
    (by decide) _ (by decide) (by decide) rfl

example : resolveDir demoCloud (.text "/teamspace/s3_folders/f/a".toList) = .ok ⟨some "/teamspace/s3_folders/f/a".toList, some "s3://fold/a".toList⟩ :=
  c59_folder demoCloud "p".toList rfl "f".toList "s3://fold".toList false rfl (by decide) (by decide) (by decide) ["a".toList] (by decide)
    (by decide) _ (by decide) (by decide) rfl

example : resolveDir demoCloud (.text "/teamspace/datasets/d/x".toList) =
    .ok ⟨some "/teamspace/datasets/d/x".toList, some "s3://bucket/projects/p/datasets/d/x".toList⟩ :=
  c59_dataset demoCloud "k".toList "p".toList "2".toList "bucket".toList rfl rfl rfl _ rfl rfl "d".toList (by decide) ["x".toList] (by decide) _
    (by decide) (by decide) rfl

example : resolveDir demoCloud (.text "/teamspace/studios/First/x".toList) =
    .ok ⟨some "/teamspace/studios/First/x".toList, some "s3://bucket/projects/p/cloudspaces/1/code/content/x".toList⟩ :=
  c59_studio demoCloud "k".toList "p".toList "bucket".toList rfl rfl "First".toList (by decide) [] _ _ rfl (.inl (by decide)) (by simp) rfl ["x".toList]
    (by decide) _ (by decide) (by decide) rfl (by decide)

example : resolveDir demoCloud (.text "/data/x".toList) = .ok ⟨some "/data/x".toList, none⟩ :=
  c59_local demoCloud _ (by decide) (by decide) (by decide) (by decide)

example : resolveDir demoCloud (.dir ⟨some "/teamspace/s3_folders/f/a".toList, some "s3://fold/a".toList⟩) =
    .ok ⟨some "/teamspace/s3_folders/f/a".toList, some "s3://fold/a".toList⟩ :=
  c59_idempotent demoCloud (by decide) (.text "/teamspace/s3_folders/f/a".toList) _ (by decide) (by decide)

theorem flatMap_slash_inj {p q : List PathStr} (hp : ∀ x ∈ p, '/' ∉ x) (hq : ∀ x ∈ q, '/' ∉ x)
    (h : p.flatMap ('/' :: ·) = q.flatMap ('/' :: ·)) : p = q := by
  have h1 := splitChar_parts '/' [] p (by simp) hp
  have h2 := splitChar_parts '/' [] q (by simp) hq
  rw [h, h2] at h1
  simpa using h1.symm

/-- **C59, nothing is mixed up.** Two folders of the same connection with the same URL are the same folder. -/
theorem c59_connection_injective (env : CloudEnv) (project : PathStr) (hpr : env.projectId = some project) (name base : PathStr) (slash : Bool)
    (hsrc : env.awsSources.lookup name = some (base ++ if slash then ['/'] else [])) (hb : base ≠ []) (he : base.getLast? ≠ some '/')
    (hn : '/' ∉ name) (p q : List PathStr) (hp : ∀ x ∈ p, x ≠ [] ∧ '/' ∉ x) (hq : ∀ x ∈ q, x ≠ [] ∧ '/' ∉ x) (hpn : p ≠ []) (hqn : q ≠ [])
    (s t : PathStr) (hs : isRemote s = false) (ht : isRemote t = false) (hs' : hasTimeTemplate s = false) (ht' : hasTimeTemplate t = false)
    (has : env.absolute s = teamspacePath "/teamspace/s3_connections" name p) (hat : env.absolute t = teamspacePath "/teamspace/s3_connections" name q)
    (d e : UserDir) (hd : resolveDir env (.text s) = .ok d) (hee : resolveDir env (.text t) = .ok e) (h : d.url = e.url) :
    env.absolute s = env.absolute t := by
  have h1 := c59_connection env project hpr name base slash hsrc hb he hn p hp hpn s hs hs' has
  have h2 := c59_connection env project hpr name base slash hsrc hb he hn q hq hqn t ht ht' hat
  rw [hd] at h1
  rw [hee] at h2
  cases h1
  cases h2
  simp only [Option.some.injEq, List.append_cancel_left_eq] at h
  rw [has, hat, flatMap_slash_inj (fun x hx => (hp x hx).2) (fun x hx => (hq x hx).2) h]

/-- **C59, unknown names are refused.** -/
theorem c59_unknown (env : CloudEnv) (project : PathStr) (hpr : env.projectId = some project) (name : PathStr) (hsrc : env.awsSources.lookup name = none)
    (hn : '/' ∉ name) (parts : List PathStr) (hp : ∀ p ∈ parts, '/' ∉ p) (s : PathStr) (hr : isRemote s = false) (ht : hasTimeTemplate s = false)
    (habs : env.absolute s = teamspacePath "/teamspace/s3_connections" name parts) : resolveDir env (.text s) = .error .valueError := by
  have hst := teamspacePath_not_starts "/teamspace/s3_connections" "/teamspace/studios" name parts (by decide) (by decide)
  rw [resolveDir_absolute env s hr ht, habs]
  · unfold resolveAbsolute
    rw [hst, teamspacePath_starts _ "/teamspace/s3_connections" name parts (by decide),
      teamspacePath_split "/teamspace/s3_connections" "s3_connections".toList (by decide) (by decide) name parts hn hp]
    unfold resolveConnection
    rw [teamspacePath_split "/teamspace/s3_connections" "s3_connections".toList (by decide) (by decide) name parts hn hp, hpr]
    have e1 : ([[], "teamspace".toList, "s3_connections".toList, name] ++ parts).getD 3 [] = name := rfl
    simp only [e1, hsrc]
    simp
  · rw [habs]
    exact startsWith_shorter "/teamspace/studios" _ (List.isPrefixOf_iff_prefix.1 (by decide)) _ hst
  · rw [habs]
    exact teamspacePath_not_starts _ _ name parts (by decide) (by decide)

example : resolveDir demoCloud (.text "/teamspace/s3_connections/z/a".toList) = .error .valueError :=
  c59_unknown demoCloud "p".toList rfl "z".toList rfl (by decide) ["a".toList] (by decide) _ (by decide) (by decide) rfl

/-- **C59, replaced paths have a URL.** A folder of a connection, a folder or a dataset is replaced by a cache directory, and the URL to fill it from is known. -/
theorem c59_replaced (kind : String) (hk : kind ∈ ["/teamspace/s3_connections", "/teamspace/s3_folders", "/teamspace/datasets"]) (name : PathStr)
    (parts : List PathStr) : shouldReplacePath (some (teamspacePath kind name parts)) = true := by
  unfold shouldReplacePath
  simp only [Bool.or_eq_true, List.any_eq_true]
  right
  refine ⟨kind ++ "/", ?_, ?_⟩
  · simp only [List.mem_cons, List.not_mem_nil, or_false] at hk
    rcases hk with rfl | rfl | rfl <;> decide
  · unfold startsWith teamspacePath
    rw [List.isPrefixOf_iff_prefix]
    simp

/-- **C59, folders of Google Cloud.** Their paths are replaced by a cache directory, but no URL is found for them, so that nothing can be read. -/
theorem c59_gcs_without_url (env : CloudEnv) (kind : String) (hk : kind ∈ ["/teamspace/gcs_folders", "/teamspace/gcs_connections"]) (name : PathStr)
    (parts : List PathStr) (s : PathStr) (hr : isRemote s = false) (ht : hasTimeTemplate s = false)
    (habs : env.absolute s = teamspacePath kind name parts) :
    resolveDir env (.text s) = .ok ⟨some (teamspacePath kind name parts), none⟩ ∧ shouldReplacePath (some (teamspacePath kind name parts)) = true := by
  have hno : ∀ q : String, q ∈ ["/teamspace/st", "/teamspace/s3", "/teamspace/da"] → startsWith q (teamspacePath kind name parts) = false := by
    intro q hq
    apply teamspacePath_not_starts
    · simp only [List.mem_cons, List.not_mem_nil, or_false] at hk hq
      rcases hk with rfl | rfl <;> rcases hq with rfl | rfl | rfl <;> decide
    · simp only [List.mem_cons, List.not_mem_nil, or_false] at hk hq
      rcases hk with rfl | rfl <;> rcases hq with rfl | rfl | rfl <;> decide
  have hno' : ∀ q q' : String, q ∈ ["/teamspace/st", "/teamspace/s3", "/teamspace/da"] → q.toList <+: q'.toList →
      startsWith q' (teamspacePath kind name parts) = false := fun q q' hq h => startsWith_shorter q q' h _ (hno q hq)
  constructor
  · rw [resolveDir_absolute env s hr ht, habs]
    · unfold resolveAbsolute
      rw [hno' "/teamspace/st" "/teamspace/studios" (by simp) (List.isPrefixOf_iff_prefix.1 (by decide)),
        hno' "/teamspace/s3" "/teamspace/s3_connections" (by simp) (List.isPrefixOf_iff_prefix.1 (by decide)),
        hno' "/teamspace/s3" "/teamspace/s3_folders" (by simp) (List.isPrefixOf_iff_prefix.1 (by decide)),
        hno' "/teamspace/da" "/teamspace/datasets" (by simp) (List.isPrefixOf_iff_prefix.1 (by decide))]
      simp
    · rw [habs]
      exact hno' "/teamspace/st" _ (by simp) (List.isPrefixOf_iff_prefix.1 (by decide))
    · rw [habs]
      apply teamspacePath_not_starts
      · simp only [List.mem_cons, List.not_mem_nil, or_false] at hk
        rcases hk with rfl | rfl <;> decide
      · simp only [List.mem_cons, List.not_mem_nil, or_false] at hk
        rcases hk with rfl | rfl <;> decide
  · unfold shouldReplacePath
    simp only [Bool.or_eq_true, List.any_eq_true]
    right
    refine ⟨kind ++ "/", ?_, ?_⟩
    · simp only [List.mem_cons, List.not_mem_nil, or_false] at hk
      rcases hk with rfl | rfl <;> decide
    · unfold startsWith teamspacePath
      rw [List.isPrefixOf_iff_prefix]
      simp

example : resolveDir demoCloud (.text "/teamspace/gcs_folders/g/a".toList) = .ok ⟨some "/teamspace/gcs_folders/g/a".toList, none⟩ :=
  (c59_gcs_without_url demoCloud "/teamspace/gcs_folders" (by decide) "g".toList ["a".toList] _ (by decide) (by decide) rfl).1

/-- **C59, prefixes without a slash.** A folder `/teamspace/datasets_old` is taken for that of the datasets: its folder `x` gets the URL of the dataset `x`, while its
path is not replaced. A Studio whose name begins with `this_studio` is taken for the running one and gets no URL. -/
theorem c59_prefix_confused :
    resolveDir demoCloud (.text "/teamspace/datasets_old/x".toList) =
        .ok ⟨some "/teamspace/datasets_old/x".toList, some "s3://bucket/projects/p/datasets/x".toList⟩ ∧
      shouldReplacePath (some "/teamspace/datasets_old/x".toList) = false ∧
      resolveDir demoCloud (.text "/teamspace/studios/this_studio_2/x".toList) = .ok ⟨some "/teamspace/studios/this_studio_2/x".toList, none⟩ := by
  decide

/-- **C59, Studios of the same name.** The path of the Studio `second` leads to the Studio `first`, which is shown as `Second`. -/
theorem c59_studio_ambiguous : resolveDir demoCloud (.text "/teamspace/studios/second/x".toList) =
    .ok ⟨some "/teamspace/studios/second/x".toList, some "s3://bucket/projects/p/cloudspaces/1/code/content/x".toList⟩ := by
  decide

theorem pyReplace_last (old new a : PathStr) (c : Char) (hc : old.head? = some c) (ha : c ∉ a) : pyReplace old new 0 (a ++ old) = a ++ new := by
  induction a with
  | nil =>
    cases old with
    | nil => cases hc
    | cons x old =>
      simp only [List.nil_append, pyReplace]
      rw [if_pos (by simp)]
      have := pyReplace_skip (x :: old) new old []
      simp only [List.append_nil] at this
      simp only [List.length_cons, Nat.add_sub_cancel, this, pyReplace, List.append_nil]
  | cons b a ih =>
    have hb : b ≠ c := fun e => ha (e ▸ List.mem_cons_self)
    rw [List.cons_append, pyReplace, if_neg, ih fun h => ha (List.mem_cons_of_mem _ h)]
    · rfl
    · cases old with
      | nil => cases hc
      | cons x old =>
        simp only [List.head?_cons, Option.some.injEq] at hc
        simp only [List.isPrefixOf, Bool.and_eq_true, beq_iff_eq]
        rintro ⟨h, _⟩
        exact hb (by rw [← h, hc])

/-- **C59, time templates.** The one pattern in braces at the end of a path is replaced by the formatted time. -/
theorem c59_template (strftime : PathStr → PathStr) (before pattern : PathStr) (h1 : '{' ∉ before) (h2 : '{' ∉ pattern) (h3 : '}' ∉ pattern) :
    resolveTimeTemplate strftime (before ++ ('{' :: '%' :: pattern ++ ['}'])) = before ++ strftime ('%' :: pattern) := by
  have ht : hasTimeTemplate (before ++ ('{' :: '%' :: pattern ++ ['}'])) = true := by
    unfold hasTimeTemplate
    simp only [Bool.and_eq_true, decide_eq_true_eq, List.any_eq_true, List.mem_range]
    refine ⟨by rw [List.getLast?_append, List.getLast?_append]; rfl, before.length, by simp, ?_⟩
    have e : (before ++ ('{' :: '%' :: pattern ++ ['}'])).dropLast = before ++ ('{' :: '%' :: pattern) := by
      rw [← List.append_assoc, List.dropLast_concat]
    rw [e, List.drop_left]
    rfl
  unfold resolveTimeTemplate
  rw [ht]
  have e1 : splitChar '{' (before ++ ('{' :: '%' :: pattern ++ ['}'])) = [before, '%' :: pattern ++ ['}']] := by
    have := splitChar_append '{' before ('%' :: pattern ++ ['}']) h1
    rw [List.cons_append, List.cons_append, ← List.cons_append, this, splitChar_none]
    simp [h2]
  have e2 : splitChar '}' ('%' :: pattern ++ ['}']) = ['%' :: pattern, []] := by
    have := splitChar_append '}' ('%' :: pattern) [] (by simp [h3])
    rw [this]
    rfl
  rw [if_pos rfl, e1]
  have e3 : [before, '%' :: pattern ++ ['}']].getD 1 [] = '%' :: pattern ++ ['}'] := rfl
  have e4 : ['%' :: pattern, []].getD 0 [] = '%' :: pattern := rfl
  simp only [e3, e2, e4]
  exact pyReplace_last ('{' :: '%' :: pattern ++ ['}']) (strftime ('%' :: pattern)) before '{' rfl h1

example : resolveTimeTemplate (fun _ => "2025".toList) "/data/{%Y}".toList = "/data/2025".toList :=
  c59_template (fun _ => "2025".toList) "/data/".toList "Y".toList (by decide) (by decide) (by decide)

/-- **C59, other braces.** With braces before the template it is left in the path; a template that is not at the end is left as well. -/
theorem c59_template_missed :
    resolveTimeTemplate (fun p => if p = "%Y".toList then "2025".toList else p) "/{a}/{%Y}".toList = "/a/{%Y}".toList ∧
      resolveTimeTemplate (fun _ => "2025".toList) "/{%Y}/x".toList = "/{%Y}/x".toList := by
  decide

/-- **C59, URLs are read through a cache directory.** What a URL is resolved to has no path of its own, so it gets a cache directory; so does the empty path; a path that is not
below `/teamspace/` never does. -/
theorem c59_remote_replaced (env : CloudEnv) (scheme : String) (hs : scheme ∈ ["s3://", "gs://", "azure://", "hf://", "local:"]) (rest : PathStr) :
    (∃ d, resolveDir env (.text (scheme.toList ++ rest)) = .ok d ∧ shouldReplacePath d.path = true) ∧ shouldReplacePath (some []) = true ∧
      ∀ p : PathStr, p ≠ [] → ¬ "/teamspace/".toList <+: p → shouldReplacePath (some p) = false := by
  refine ⟨⟨_, c59_remote env scheme hs rest, rfl⟩, rfl, ?_⟩
  intro p hp hn
  unfold shouldReplacePath
  simp only [hp, decide_false, Bool.false_or]
  rw [List.any_eq_false]
  intro q hq hst
  apply hn
  unfold startsWith at hst
  rw [List.isPrefixOf_iff_prefix] at hst
  refine List.IsPrefix.trans ?_ hst
  rw [← List.isPrefixOf_iff_prefix]
  simp only [List.mem_cons, List.not_mem_nil, or_false] at hq
  rcases hq with rfl | rfl | rfl | rfl | rfl <;> decide

end LitData.Props
