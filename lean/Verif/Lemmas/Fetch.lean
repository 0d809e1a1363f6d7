import Verif.Model.Fetch
import Verif.Lemmas.FsProvider

/-! Lemmas on what a downloader takes a URL for. -/

namespace LitData

/-- The URL of a file below a scheme. -/
def schemeUrl (scheme bucket key : PathStr) : PathStr := scheme ++ "://".toList ++ bucket ++ '/' :: key

theorem urlParse_schemeUrl (scheme bucket rest : PathStr) (hs : ∀ r, urlScheme (scheme ++ ':' :: r) = (scheme, r)) (hb : BucketName bucket) :
    urlParse (schemeUrl scheme bucket rest) = ⟨scheme, bucket, '/' :: rest.takeWhile inPath⟩ := by
  have e : schemeUrl scheme bucket rest = scheme ++ ':' :: ('/' :: '/' :: (bucket ++ '/' :: rest)) := by simp [schemeUrl]
  unfold urlParse
  rw [e, hs]
  simp only
  have := takeWhile_stop (fun c => c != '/' && inPath c) bucket '/' rest (by
    intro c hc
    obtain ⟨h1, h2, h3⟩ := hb c hc
    simp [inPath, h1, h2, h3]) (by decide)
  rw [this.1, this.2]
  rfl

theorem urlScheme_wanted (d : BuiltinDownloader) (s : PathStr) (h : d.wanted = some s) (r : PathStr) : urlScheme (s ++ ':' :: r) = (s, r) := by
  unfold urlScheme
  have := takeWhile_stop (fun c : Char => c != ':') s ':' r (by
    cases d <;> simp only [BuiltinDownloader.wanted, Option.some.injEq, reduceCtorEq] at h <;> subst h <;> decide) (by decide)
  rw [this.1, this.2]
  cases d <;> simp only [BuiltinDownloader.wanted, Option.some.injEq, reduceCtorEq] at h <;> subst h <;> rfl

/-- A scheme of small letters. -/
theorem urlScheme_lower (scheme rest : PathStr) (h0 : scheme ≠ []) (hs : ∀ c ∈ scheme, c.isLower = true) : urlScheme (scheme ++ ':' :: rest) = (scheme, rest) := by
  have hlow : ∀ c : Char, c.isLower = true → c ≠ ':' ∧ c.isAlpha = true ∧ c.isAlphanum = true ∧ c.toLower = c := by
    intro c hc
    refine ⟨?_, ?_, ?_, ?_⟩
    · rintro rfl; exact absurd hc (by decide)
    · simp [Char.isAlpha, hc]
    · simp [Char.isAlphanum, Char.isAlpha, hc]
    · have hnu : ¬ (c.val ≥ 'A'.val ∧ c.val ≤ 'Z'.val) := by
        simp only [Char.isLower, Bool.and_eq_true, decide_eq_true_eq, ge_iff_le, UInt32.le_iff_toNat_le] at hc ⊢
        have h97 : 'a'.val.toNat = 97 := rfl
        have h90 : 'Z'.val.toNat = 90 := rfl
        omega
      unfold Char.toLower
      rw [dif_neg hnu]
  have := takeWhile_stop (fun c : Char => c != ':') scheme ':' rest (fun c hc => by simpa using (hlow c (hs c hc)).1) (by decide)
  unfold urlScheme
  rw [this.1, this.2]
  simp only
  rw [if_pos]
  · have : scheme.map Char.toLower = scheme := by
      rw [List.map_congr_left (g := id) (fun c hc => (hlow c (hs c hc)).2.2.2), List.map_id]
    rw [this]
  · rw [Bool.and_eq_true]
    constructor
    · cases scheme with
      | nil => exact absurd rfl h0
      | cons a l => simpa using (hlow a (hs a List.mem_cons_self)).2.1
    · rw [List.all_eq_true]
      intro c hc
      simp [schemeChar, (hlow c (hs c hc)).2.2.1]

theorem urlParse_no_colon (path : PathStr) (hp : ':' ∉ path) : (urlParse path).scheme = [] := by
  have hsch : (urlParse path).scheme = (urlScheme path).1 := by
    unfold urlParse
    split <;> rename_i h <;> rw [h]
  rw [hsch]
  unfold urlScheme
  have : path.dropWhile (· != ':') = [] := by
    have h := List.dropWhile_append_of_pos (p := (· != ':')) (l₁ := path) (l₂ := []) (by
      intro c hc
      simp only [bne_iff_ne, ne_eq]
      rintro rfl
      exact hp hc)
    simpa using h
  rw [this]

theorem lstripSlash_one (key : PathStr) (h : key.head? ≠ some '/') : lstripSlash ('/' :: key) = key := by
  cases key with
  | nil => rfl
  | cons c k =>
    simp only [List.head?_cons, ne_eq, Option.some.injEq] at h
    simp [lstripSlash, h]

theorem lstripSlash_more (n : Nat) (key : PathStr) (h : key.head? ≠ some '/') : lstripSlash (List.replicate n '/' ++ key) = key := by
  induction n with
  | zero =>
    cases key with
    | nil => rfl
    | cons c k =>
      simp only [List.head?_cons, ne_eq, Option.some.injEq] at h
      simp [lstripSlash, h]
  | succ n ih =>
    rw [List.replicate_succ, List.cons_append]
    unfold lstripSlash at ih ⊢
    rw [List.dropWhile_cons, if_pos (by decide)]
    exact ih

/-- Nothing that a shell would interpret. -/
def PlainPath (p : PathStr) : Prop := p ≠ [] ∧ ∀ c ∈ p, plainShellChar c = true

theorem PlainPath.space {p : PathStr} (h : PlainPath p) : ' ' ∉ p := fun hc => absurd (h.2 _ hc) (by decide)

theorem splitChar_word (c : Char) (a : PathStr) (h : c ∉ a) : splitChar c a = [a] := by
  induction a with
  | nil => rfl
  | cons d a ih =>
    simp only [List.mem_cons, not_or] at h
    simp only [splitChar, if_neg (Ne.symm h.1), ih h.2]

theorem s5cmdLine_words (noSign : Bool) (remote loc : PathStr) (hr : PlainPath remote) (hl : PlainPath loc) :
    shellWords (s5cmdLine noSign remote loc) =
      some (if noSign then ["s5cmd".toList, "--no-sign-request".toList, "cp".toList, remote, loc] else ["s5cmd".toList, "cp".toList, remote, loc]) := by
  have hpl : ∀ p, PlainPath p → (p.all fun c => plainShellChar c || c == ' ') = true := by
    intro p hp
    rw [List.all_eq_true]
    intro c hc
    rw [hp.2 c hc]
    rfl
  have hall : ((s5cmdLine noSign remote loc).all fun c => plainShellChar c || c == ' ') = true := by
    unfold s5cmdLine
    rw [List.all_append, List.all_append, List.all_append, List.all_append, List.all_cons, hpl remote hr, hpl loc hl]
    cases noSign <;> decide
  unfold shellWords
  rw [if_pos hall]
  have hs : splitChar ' ' (remote ++ ' ' :: loc) = [remote, loc] := by
    rw [splitChar_both, splitChar_word ' ' remote hr.space, splitChar_word ' ' loc hl.space]
    rfl
  have hne : ∀ p, PlainPath p → decide (p ≠ []) = true := fun p hp => by simpa using hp.1
  have e1 : "s5cmd ".toList = "s5cmd".toList ++ [' '] := rfl
  have e2 : "cp ".toList = "cp".toList ++ [' '] := rfl
  have e3 : "--no-sign-request ".toList = "--no-sign-request".toList ++ [' '] := rfl
  cases noSign with
  | false =>
    have e : s5cmdLine false remote loc = "s5cmd".toList ++ ' ' :: ("cp".toList ++ ' ' :: (remote ++ ' ' :: loc)) := by
      unfold s5cmdLine
      rw [e1, e2, if_neg (by decide)]
      simp only [List.append_assoc, List.nil_append, List.cons_append]
    rw [e, splitChar_both, splitChar_both, hs]
    show some (List.filter _ ["s5cmd".toList, "cp".toList, remote, loc]) = _
    simp only [List.filter_cons, hne remote hr, hne loc hl, if_true, List.filter_nil]
    rfl
  | true =>
    have e : s5cmdLine true remote loc = "s5cmd".toList ++ ' ' :: ("--no-sign-request".toList ++ ' ' :: ("cp".toList ++ ' ' :: (remote ++ ' ' :: loc))) := by
      unfold s5cmdLine
      rw [e1, e2, e3, if_pos rfl]
      simp only [List.append_assoc, List.nil_append, List.cons_append]
    rw [e, splitChar_both, splitChar_both, splitChar_both, hs]
    show some (List.filter _ ["s5cmd".toList, "--no-sign-request".toList, "cp".toList, remote, loc]) = _
    simp only [List.filter_cons, hne remote hr, hne loc hl, if_true, List.filter_nil]
    rfl

theorem s5cmdKey_object (bucket key : PathStr) (hb : BucketName bucket) : s5cmdKey (schemeUrl "s3".toList bucket key) = some (bucket, key) := by
  have e : schemeUrl "s3".toList bucket key = "s3://".toList ++ (bucket ++ '/' :: key) := by simp [schemeUrl]
  have h := takeWhile_stop (fun c : Char => c != '/') bucket '/' key (fun c hc => by simpa using (hb c hc).1) (by decide)
  unfold s5cmdKey
  rw [e, if_pos (by rw [List.isPrefixOf_iff_prefix]; exact List.prefix_append _ _)]
  have hd : ("s3://".toList ++ (bucket ++ '/' :: key)).drop 5 = bucket ++ '/' :: key := List.drop_left (l₁ := "s3://".toList)
  rw [hd, h.1, h.2]

theorem splitSlash_word (n : Nat) (a rest : PathStr) (h : '/' ∉ a) : splitSlash (n + 1) (a ++ '/' :: rest) = a :: splitSlash n rest := by
  induction a with
  | nil => simp [splitSlash]
  | cons c a ih =>
    simp only [List.mem_cons, not_or] at h
    simp only [List.cons_append, splitSlash, if_neg (Ne.symm h.1), ih h.2]

theorem splitSlash_end (n : Nat) (a : PathStr) (h : '/' ∉ a) : splitSlash n a = [a] := by
  induction a with
  | nil => cases n <;> rfl
  | cons c a ih =>
    simp only [List.mem_cons, not_or] at h
    cases n with
    | zero => rfl
    | succ n => simp only [splitSlash, if_neg (Ne.symm h.1), ih h.2]

end LitData
