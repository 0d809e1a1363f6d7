import Verif.Lemmas.Opening
import Verif.Lemmas.Config
import Verif.Spec.Opening
import Verif.Props.Floats
import Verif.Props.Sample

/-! Property C79: opening a dataset. -/

namespace LitData.Props
open LitData Spec

/-- **C79, the index.** What is written into `index.json` is what is read from its text. -/
theorem c79_index_read (u : Option String) (chunks : List ChunkInfo) (c : IndexConfig) :
    loadChunks (indexText u chunks c) = .ok chunks ∧ loadConfig (indexText u chunks c) = .ok c :=
  ⟨loadChunks_indexText u chunks c, loadConfig_indexText u chunks c⟩

theorem lookup_isSome_iff {β : Type} (d : List (String × β)) (k : String) : (d.lookup k).isSome ↔ k ∈ d.map (·.1) := by
  induction d with
  | nil => simp
  | cons p d ih =>
    rw [List.lookup_cons]
    by_cases h : k = p.1
    · subst h; simp
    · simp only [List.map_cons, List.mem_cons, beq_eq_false_iff_ne.2 h, h, false_or]
      exact ih

theorem first_colon (l : List Char) (h : ':' ∈ l) : ∃ a b, l = a ++ ':' :: b ∧ ':' ∉ a := by
  induction l with
  | nil => simp at h
  | cons x l ih =>
    by_cases hx : x = ':'
    · exact ⟨[], l, by rw [hx]; rfl, by simp⟩
    · obtain ⟨a, b, e1, e2⟩ := ih (by simpa [Ne.symm hx] using h)
      exact ⟨x :: a, b, by rw [e1]; rfl, by simp [e2, Ne.symm hx]⟩

/-- A text has no colon, one colon, or more. -/
theorem splitColon_cases (l : List Char) : (':' ∉ l ∧ splitColon l = [l]) ∨
    (∃ a b, ':' ∉ a ∧ ':' ∉ b ∧ l = a ++ ':' :: b ∧ splitColon l = [a, b]) ∨
    (∃ a b x y c, l = a ++ ':' :: b ∧ ':' ∉ a ∧ ':' ∈ b ∧ splitColon l = a :: x :: y :: c) := by
  by_cases h : ':' ∈ l
  · obtain ⟨a, b, h1, h2⟩ := first_colon l h
    have hs : splitColon l = a :: splitColon b := by rw [h1, splitColon_append a b h2]
    by_cases hb : ':' ∈ b
    · right; right
      obtain ⟨a', b', g1, g2⟩ := first_colon b hb
      have hs' : splitColon b = a' :: splitColon b' := by rw [g1, splitColon_append a' b' g2]
      have : splitColon b' ≠ [] := by
        cases b' with
        | nil => simp [splitColon]
        | cons y b => unfold splitColon; (repeat' split) <;> simp
      cases hsb : splitColon b' with
      | nil => exact absurd hsb this
      | cons y c => exact ⟨a, b, a', y, c, h1, h2, hb, by rw [hs, hs', hsb]⟩
    · right; left
      exact ⟨a, b, h2, hb, h1, by rw [hs, splitColon_noColon b hb]⟩
  · left; exact ⟨h, splitColon_noColon l h⟩

theorem one_colon {a b a' b' : List Char} (h : a ++ ':' :: b = a' ++ ':' :: b') (ha : ':' ∉ a) (ha' : ':' ∉ a') : a = a' ∧ b = b' := by
  induction a generalizing a' with
  | nil =>
    cases a' with
    | nil => simpa using h
    | cons x a' => simp at h; exact absurd (by simp [← h.1]) ha'
  | cons x a ih =>
    cases a' with
    | nil => simp at h; exact absurd (by simp [h.1]) ha
    | cons y a' =>
      simp only [List.cons_append, List.cons.injEq] at h
      obtain ⟨e1, e2⟩ := ih h.2 (fun hh => ha (by simp [hh])) (fun hh => ha' (by simp [hh]))
      exact ⟨by rw [h.1, e1], e2⟩

/-- Data formats with at most one colon name a key; others are refused. -/
theorem dataFormatToKey_iff {β : Type} (d : List (String × β)) (f key : String) :
    dataFormatToKey d f = .ok key ↔ Names (d.map (·.1)) f key := by
  unfold dataFormatToKey Names
  rcases splitColon_cases f.toList with ⟨h, hs⟩ | ⟨a, b, ha, hb, h, hs⟩ | ⟨a, b, x, y, c, h, ha, hb, hs⟩
  · rw [hs]
    simp only [Except.ok.injEq]
    constructor
    · intro e; exact .inl ⟨h, e.symm⟩
    · rintro (⟨_, e⟩ | ⟨a, b, _, _, e, _⟩)
      · exact e.symm
      · rw [e] at h; simp at h
  · rw [hs]
    simp only [Except.ok.injEq, lookup_isSome_iff]
    constructor
    · intro e
      refine .inr ⟨String.ofList a, String.ofList b, by simpa using ha, by simpa using hb, by simpa using h, ?_⟩
      split at e
      · rename_i hm; exact .inl ⟨hm, e.symm⟩
      · rename_i hm; exact .inr ⟨hm, e.symm⟩
    · rintro (⟨e, _⟩ | ⟨a', b', h1, h2, e, h3⟩)
      · rw [h] at e; simp at e
      · rw [h] at e
        obtain ⟨e1, e2⟩ := one_colon e ha h1
        subst e1 e2
        simp only [String.ofList_toList]
        rcases h3 with ⟨h3, e⟩ | ⟨h3, e⟩
        · rw [if_pos h3, e]
        · rw [if_neg h3, e]
  · rw [hs]
    simp only [reduceCtorEq, false_iff]
    rintro (⟨e, _⟩ | ⟨a', b', h1, h2, e, h3⟩)
    · rw [h] at e; simp at e
    · rw [h] at e
      obtain ⟨_, e2⟩ := one_colon e ha h1
      rw [e2] at hb
      exact h2 hb

theorem known_iff (keys : List String) (f : String) : KnownFormat keys f ↔ ∃ key ∈ keys, Names keys f key := by
  constructor
  · rintro (⟨h1, h2⟩ | ⟨a, b, h1, h2, h3, h4⟩)
    · exact ⟨f, h2, .inl ⟨h1, rfl⟩⟩
    · by_cases hb : b ∈ keys
      · exact ⟨b, hb, .inr ⟨a, b, h1, h2, h3, .inl ⟨hb, rfl⟩⟩⟩
      · rcases h4 with h4 | h4
        · exact ⟨a, h4, .inr ⟨a, b, h1, h2, h3, .inr ⟨hb, rfl⟩⟩⟩
        · exact absurd h4 hb
  · rintro ⟨key, hk, ⟨h1, rfl⟩ | ⟨a, b, h1, h2, h3, ⟨h4, rfl⟩ | ⟨h4, rfl⟩⟩⟩
    · exact .inl ⟨h1, hk⟩
    · exact .inr ⟨a, key, h1, h2, h3, .inr hk⟩
    · exact .inr ⟨key, b, h1, h2, h3, .inl hk⟩

/-- The table of the reader while it is set up: the names without a colon are those of the serializers. -/
structure SetupInv {V : Type} (sers : Table V) (done : List String) (d : ReadTable V) : Prop where
  plain : ∀ k : String, ':' ∉ k.toList → (d.lookup k).map (·.1) = sers.lookup k
  ready : ∀ f ∈ done, ∃ key s, Names (sers.map (·.1)) f key ∧ sers.lookup key = some s ∧ d.lookup f = some (s, some f)

theorem names_noColon {keys : List String} {f key : String} (h : Names keys f key) : ':' ∉ key.toList := by
  rcases h with ⟨h, rfl⟩ | ⟨a, b, h1, h2, _, ⟨_, rfl⟩ | ⟨_, rfl⟩⟩
  · exact h
  · exact h2
  · exact h1

theorem names_congr {keys keys' : List String} (h : ∀ k : String, ':' ∉ k.toList → (k ∈ keys ↔ k ∈ keys')) (f key : String) :
    Names keys f key ↔ Names keys' f key := by
  unfold Names
  constructor
  · rintro (h1 | ⟨a, b, h1, h2, h3, h4⟩)
    · exact .inl h1
    · exact .inr ⟨a, b, h1, h2, h3, by rw [← h b h2]; exact h4⟩
  · rintro (h1 | ⟨a, b, h1, h2, h3, h4⟩)
    · exact .inl h1
    · exact .inr ⟨a, b, h1, h2, h3, by rw [h b h2]; exact h4⟩

theorem names_unique {keys : List String} {f key key' : String} (h : Names keys f key) (h' : Names keys f key') : key = key' := by
  rcases h with ⟨h1, rfl⟩ | ⟨a, b, h1, h2, h3, h4⟩
  · rcases h' with ⟨_, rfl⟩ | ⟨a', b', g1, g2, g3, g4⟩
    · rfl
    · rw [g3] at h1; simp at h1
  · rcases h' with ⟨g1, rfl⟩ | ⟨a', b', g1, g2, g3, g4⟩
    · rw [h3] at g1; simp at g1
    · rw [h3] at g3
      obtain ⟨e1, e2⟩ := one_colon g3 h1 g1
      have e1 := String.toList_inj.1 e1
      have e2 := String.toList_inj.1 e2
      subst e1 e2
      rcases h4 with ⟨h4, rfl⟩ | ⟨h4, rfl⟩ <;> rcases g4 with ⟨g4, rfl⟩ | ⟨g4, rfl⟩
      · rfl
      · exact absurd h4 g4
      · exact absurd g4 h4
      · rfl

theorem setupFormats_inv {V : Type} (sers : Table V) (fs done : List String) (d : ReadTable V) (hi : SetupInv sers done d) :
    ((∃ d', setupFormats d fs = .ok d') ↔ ∀ f ∈ fs, KnownFormat (sers.map (·.1)) f) ∧
    ∀ d', setupFormats d fs = .ok d' → SetupInv sers (done ++ fs) d' := by
  induction fs generalizing d done with
  | nil =>
    refine ⟨by simp [setupFormats], fun d' h => ?_⟩
    simp only [setupFormats, Except.ok.injEq] at h
    subst h
    simpa using hi
  | cons f fs ih =>
    have hkeys : ∀ k : String, ':' ∉ k.toList → (k ∈ d.map (·.1) ↔ k ∈ sers.map (·.1)) := by
      intro k hk
      rw [← lookup_isSome_iff, ← lookup_isSome_iff, ← hi.plain k hk, Option.isSome_map]
    unfold setupFormats
    cases hk : dataFormatToKey d f with
    | error e =>
      simp only [reduceCtorEq, exists_false, false_iff, false_implies, implies_true, and_true]
      intro h
      obtain ⟨key, _, hn⟩ := (known_iff _ _).1 (h f (by simp))
      rw [← names_congr hkeys, ← dataFormatToKey_iff, hk] at hn
      cases hn
    | ok key =>
      have hn := (names_congr hkeys f key).1 ((dataFormatToKey_iff d f key).1 hk)
      have hc := names_noColon hn
      simp only
      cases hl : d.lookup key with
      | none =>
        simp only [reduceCtorEq, exists_false, false_iff, false_implies, implies_true, and_true]
        intro h
        obtain ⟨key', hm, hn'⟩ := (known_iff _ _).1 (h f (by simp))
        have := names_unique hn hn'
        subst this
        have := hi.plain key hc
        rw [hl] at this
        rw [← lookup_isSome_iff, ← this] at hm
        cases hm
      | some p =>
        obtain ⟨s, o⟩ := p
        simp only
        have hs : sers.lookup key = some s := by rw [← hi.plain key hc, hl]; rfl
        have hi' : SetupInv sers (done ++ [f]) (tableSet d f (s, some f)) := by
          constructor
          · intro k hk'
            rw [lookup_tableSet]
            split
            · rename_i e
              subst e
              rcases hn with ⟨_, rfl⟩ | ⟨a, b, _, _, e, _⟩
              · rw [hs]; rfl
              · rw [e] at hk'; simp at hk'
            · exact hi.plain k hk'
          · intro g hg
            rw [lookup_tableSet]
            split
            · rename_i e
              subst e
              exact ⟨key, s, hn, hs, rfl⟩
            · rename_i hne
              simp only [List.mem_append, List.mem_singleton, hne, or_false] at hg
              exact hi.ready g hg
        obtain ⟨i1, i2⟩ := ih (done ++ [f]) _ hi'
        refine ⟨?_, fun d' h => by simpa using i2 d' h⟩
        rw [i1]
        constructor
        · intro h g hg
          rcases List.mem_cons.1 hg with rfl | hg
          · exact (known_iff _ _).2 ⟨key, by rw [← lookup_isSome_iff, hs]; rfl, hn⟩
          · exact h g hg
        · intro h g hg
          exact h g (by simp [hg])

theorem setupInv_init {V : Type} (sers : Table V) : SetupInv sers [] (ReadTable.ofTable sers) := by
  refine ⟨fun k _ => ?_, by simp⟩
  unfold ReadTable.ofTable
  induction sers with
  | nil => rfl
  | cons p sers ih =>
    rw [List.map_cons, List.lookup_cons, List.lookup_cons]
    cases h : k == p.1 with
    | true => rfl
    | false => exact ih

theorem generateIntervals_layout (cs : List ChunkInfo) (roi : List Roi) (idx b : Nat) (h : idx + cs.length ≤ roi.length) :
    generateIntervals (some roi) idx b cs = .ok (layout b (cs.map (·.chunkSize)) (roi.drop idx)) := by
  induction cs generalizing idx b with
  | nil => simp [generateIntervals, layout]
  | cons c cs ih =>
    simp only [List.length_cons] at h
    have hlt : idx < roi.length := by omega
    unfold generateIntervals
    simp only [List.getElem?_eq_getElem hlt]
    rw [ih (idx + 1) _ (by omega), List.drop_eq_getElem_cons hlt]
    rfl

theorem tokIntervals_layout (bs : Nat) (cs : List ChunkInfo) (roi : List Roi) (idx b : Nat) (h : idx + cs.length ≤ roi.length) :
    tokIntervals bs (some roi) idx b cs =
      if bs = 0 then .error .assertion else if ∃ c ∈ cs, c.dim = none then .error .typeError
      else .ok (layout b (cs.map fun c => c.dim.getD 0 / bs) (roi.drop idx)) := by
  induction cs generalizing idx b with
  | nil => simp [tokIntervals, layout]
  | cons c cs ih =>
    simp only [List.length_cons] at h
    have hlt : idx < roi.length := by omega
    unfold tokIntervals
    split
    · rfl
    rename_i hb
    cases hd : c.dim with
    | none => simp [hd]
    | some d =>
      simp only [List.getElem?_eq_getElem hlt]
      rw [ih (idx + 1) _ (by omega), if_neg hb, List.drop_eq_getElem_cons hlt]
      by_cases hex : ∃ c ∈ cs, c.dim = none
      · rw [if_pos hex, if_pos (by obtain ⟨x, hx, hx'⟩ := hex; exact ⟨x, by simp [hx], hx'⟩)]
      · rw [if_neg hex, if_neg (by
          rintro ⟨x, hx, hx'⟩
          rcases List.mem_cons.1 hx with rfl | hx
          · rw [hd] at hx'; cases hx'
          · exact hex ⟨x, hx, hx'⟩)]
        rw [List.map_cons, hd]
        rfl

theorem layout_last (b : Nat) (ns : List Nat) (rs : List (Nat × Nat)) (h : ns.length = rs.length) (hne : ns ≠ []) :
    configLength (layout b ns rs) = b + ns.sum := by
  induction ns generalizing b rs with
  | nil => exact absurd rfl hne
  | cons n ns ih =>
    cases rs with
    | nil => simp at h
    | cons r rs =>
      unfold layout
      cases ns with
      | nil => simp [layout, configLength]
      | cons m ns =>
        have := ih (b + n) rs (by simpa using h) (by simp)
        cases rs with
        | nil => simp at h
        | cons r' rs =>
          unfold configLength at this ⊢
          rw [List.getLast?_cons]
          simp only [layout] at this ⊢
          rw [List.getLast?_cons] at this
          rw [List.getLast?_cons]
          simp only [Option.getD_some, List.sum_cons] at this ⊢
          omega

/-- The size of a token is known exactly for data formats of tokens. -/
theorem tokenSize_iff (f : String) (sz : Nat) : tokenSize f = .ok sz ↔ TokenFormat f sz := by
  have ht : "no_header_tensor:".toList = "no_header_tensor".toList ++ [':'] := by decide
  have hnp : "no_header_numpy:".toList = "no_header_numpy".toList ++ [':'] := by decide
  have nt : ':' ∉ "no_header_tensor".toList := by decide
  have nn : ':' ∉ "no_header_numpy".toList := by decide
  have hne : "no_header_numpy".toList ≠ "no_header_tensor".toList := by decide
  have digit_colon : ∀ l : List Char, (∀ c ∈ l, c.isDigit = true) → ':' ∉ l := by
    intro l h hc
    exact absurd (h ':' hc) (by decide)
  unfold tokenSize TokenFormat
  rw [ht, hnp]
  generalize "no_header_tensor".toList = T at *
  generalize "no_header_numpy".toList = N at *
  clear ht hnp
  have hsplit : ∀ (X digits : List Char), ':' ∉ X → (∀ c ∈ digits, c.isDigit = true) → f.toList = X ++ [':'] ++ digits →
      splitColon f.toList = [X, digits] := by
    intro X digits hX hd h
    rw [h, List.append_assoc, List.singleton_append, splitColon_append X digits hX, splitColon_noColon _ (digit_colon _ hd)]
  constructor
  · intro h
    split at h
    · rename_i name d hs
      have hd : f.toList = name ++ ':' :: d ∧ ':' ∉ name := by
        rcases splitColon_cases f.toList with ⟨_, hs'⟩ | ⟨a, b, ha, _, e, hs'⟩ | ⟨a, b, x, y, c, _, _, _, hs'⟩
        · rw [hs] at hs'; cases hs'
        · rw [hs] at hs'; cases hs'; exact ⟨e, ha⟩
        · rw [hs] at hs'; cases hs'
      unfold formatIndex at h
      rw [hs] at h
      simp only at h
      split at h
      · cases h
      rename_i i hi
      split at hi
      · rename_i hdig
        cases hi
        refine ⟨d, hdig.1, fun c hc => List.all_eq_true.1 hdig.2 c hc, ?_⟩
        split at h
        · rename_i e
          subst e
          left
          refine ⟨by rw [hd.1]; simp, ?_⟩
          split at h
          · cases h
          · rename_i t ht; cases h; exact ⟨t, ht, rfl⟩
        · split at h
          · rename_i e
            subst e
            right
            refine ⟨by rw [hd.1]; simp, ?_⟩
            split at h
            · cases h
            · rename_i t ht; cases h; exact ⟨t, ht, rfl⟩
          · cases h
      · cases hi
    · cases h
  · rintro ⟨digits, h1, h2, ⟨h3, d, h4, h5⟩ | ⟨h3, d, h4, h5⟩⟩
    · have hs := hsplit T digits nt h2 h3
      unfold formatIndex
      rw [hs]
      simp only
      rw [if_pos ⟨h1, List.all_eq_true.2 fun c hc => h2 c hc⟩]
      simp only [if_true, h4, h5]
    · have hs := hsplit N digits nn h2 h3
      unfold formatIndex
      rw [hs]
      simp only
      rw [if_pos ⟨h1, List.all_eq_true.2 fun c hc => h2 c hc⟩]
      simp only [if_neg hne, if_true, h4, h5]

end LitData.Props
