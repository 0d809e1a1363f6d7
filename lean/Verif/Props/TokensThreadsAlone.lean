import Verif.Props.TokensThreadsMain

/-! Property C77, what the thread does to a chunk when it is not interrupted. -/

namespace LitData.Props
open LitData Spec

/-- The thread alone, from any state: deleting a chunk whose file is there ends without an exception and leaves neither file nor memory map nor buffer of it, and everything
else as it was. The counter is reset if there was a map. -/
theorem c77_deletes (cfg : TokPass) (s : TokThreads) (k : Nat) (hp : s.tpc = .delThere k) (hf : s.file k ≠ none) :
    ∃ n s', tokActs cfg (List.replicate n .line) s = some s' ∧ s'.tpc = .idle
      ∧ (∀ i, s'.file i = if i = k then none else s.file i) ∧ (∀ i, s'.mm i = if i = k then none else s.mm i)
      ∧ (∀ i, s'.buf i = if i = k then none else s.buf i)
      ∧ (∀ i, s'.counter i = if i = k ∧ s.mm k ≠ none then 0 else s.counter i)
      ∧ (∀ m : Nat, s.mm k = some m → ∀ c, s.maps[m]? = some c → s'.maps[m]? = some (k, none))
      ∧ s'.known = s.known ∧ s'.rpc = s.rpc ∧ s'.done = s.done ∧ s'.out = s.out ∧ s'.given = s.given ∧ s'.deleted = s.deleted := by
  obtain ⟨file, maps, mm, buf, counter, known, given, deleted, tpc, rpc, done, last, out⟩ := s
  simp only at hp hf ⊢
  subst hp
  cases hfk : file k with
  | none => exact absurd hfk hf
  | some f =>
    cases hb : buf k with
    | none =>
      cases hm : mm k with
      | none =>
        refine ⟨4, ?_⟩
        simp [List.replicate, tokActs, tokAct, tokThreadLine, hfk, hb, hm, setKey]
      | some m =>
        refine ⟨7, ?_⟩
        simp [List.replicate, tokActs, tokAct, tokThreadLine, hfk, hb, hm, setKey]
        try grind
    | some b =>
      cases hm : mm k with
      | none =>
        refine ⟨5, ?_⟩
        simp [List.replicate, tokActs, tokAct, tokThreadLine, hfk, hb, hm, setKey]
      | some m =>
        refine ⟨8, ?_⟩
        simp [List.replicate, tokActs, tokAct, tokThreadLine, hfk, hb, hm, setKey]
        try grind

/-- The thread alone: loading a chunk ahead whose file is whole ends without an exception. The chunk counts as there, it has one more user, and a chunk that had no
memory map has one of everything behind the header, which its buffer shows. -/
theorem c77_loads (cfg : TokPass) (s : TokThreads) (k : Nat) (f : Bytes) (c : ChunkInfo) (hp : s.tpc = .known k) (hf : s.file k = some f) (hc : cfg.chunks[k]? = some c)
    (hl : (1 + c.chunkSize + 1) * 4 < f.length) :
    ∃ n s', tokActs cfg (List.replicate n .line) s = some s' ∧ s'.tpc = .idle ∧ s'.file = s.file
      ∧ (∀ i, s'.known i = if i = k then true else s.known i) ∧ (∀ i, s'.counter i = if i = k then s.counter i + 1 else s.counter i)
      ∧ (∀ i, i ≠ k → s'.mm i = s.mm i ∧ s'.buf i = s.buf i)
      ∧ (s.mm k ≠ none → s'.mm k = s.mm k ∧ s'.buf k = s.buf k ∧ s'.maps = s.maps)
      ∧ (s.mm k = none → ∃ m : Nat, s'.mm k = some m ∧ s'.buf k = some m ∧ s'.maps[m]? = some (k, some (f.drop ((1 + c.chunkSize + 1) * 4))) ∧ s'.maps.take s.maps.length = s.maps)
      ∧ s'.rpc = s.rpc ∧ s'.done = s.done ∧ s'.out = s.out ∧ s'.given = s.given ∧ s'.deleted = s.deleted := by
  obtain ⟨file, maps, mm, buf, counter, known, given, deleted, tpc, rpc, done, last, out⟩ := s
  simp only at hp hf ⊢
  subst hp
  have h0 : 0 < f.length := by omega
  have hmap : tokMap cfg file k = .ok (f.drop ((1 + c.chunkSize + 1) * 4)) := by
    simp only [tokMap, hc, hf]; rw [if_neg (by omega)]
  cases hm : mm k with
  | none =>
    refine ⟨7, ?_⟩
    simp [List.replicate, tokActs, tokAct, tokThreadLine, hf, h0, hm, hmap, setKey]
    grind
  | some m =>
    refine ⟨4, ?_⟩
    simp [List.replicate, tokActs, tokAct, tokThreadLine, hf, h0, hm, setKey]
    try grind

/-- A chunk of one token, mapped: the thread deletes it. -/
example : ∃ s : TokThreads, s.tpc = .delThere 0 ∧ s.file 0 ≠ none ∧ s.mm 0 = some 0 ∧ s.buf 0 = some 0 :=
  ⟨{ TokThreads.init with tpc := .delThere 0, file := fun _ => some [1], mm := fun _ => some 0, buf := fun _ => some 0, maps := [(0, some [1])] },
    rfl, (by intro h; cases h), rfl, rfl⟩

/-- A file of 13 bytes of a chunk with one item: the thread loads it ahead. -/
example : ∃ (cfg : TokPass) (s : TokThreads) (f : Bytes) (c : ChunkInfo), s.tpc = .known 0 ∧ s.file 0 = some f ∧ cfg.chunks[0]? = some c ∧ (1 + c.chunkSize + 1) * 4 < f.length :=
  ⟨⟨fun _ => some (List.replicate 13 0), [⟨"a", 1, 13, none⟩], 1, 1, [(0, 0)]⟩, { TokThreads.init with tpc := .known 0, file := fun _ => some (List.replicate 13 0) },
    _, _, rfl, rfl, rfl, by decide⟩

end LitData.Props
