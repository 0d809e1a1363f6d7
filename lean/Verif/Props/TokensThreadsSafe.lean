import Verif.Props.TokensThreadsClose

/-! Property C77, continued: passes in which nothing fails. -/

namespace LitData.Props
open LitData Spec

theorem tc_step {cfg : TokPass} (hok : TokPassOk cfg) (h2 : TwoEach cfg.items) {s s' : TokThreads} {a : TokAct} (hi : TTInv cfg s) (hc : TTClose cfg.items s)
    (h : tokAct cfg s a = some s') : TTClose cfg.items s' := by
  cases a with
  | reader => exact tc_reader hok h2 hi hc h
  | line => exact tc_thread hok hi hc h
  | fetch k =>
    simp only [tokAct] at h
    split at h
    · cases h
      obtain ⟨i1, i2, i3, i4, i5, i6, i7, i8, i9, i10, i11, i12, i13, i14, i15, i16, i17⟩ := hc
      cases hf : s.file k
      · simp only [Option.isSome_none, Bool.false_eq_true, if_false]
        constructor <;> first | assumption | grind [tokDeleting, Cleared, tokHalf]
      · simp only [Option.isSome_some, if_true]
        constructor <;> first | assumption | grind [tokDeleting, Cleared, tokHalf]
    · cases h
  | part n =>
    simp only [tokAct] at h
    split at h
    · split at h
      · cases h
      · split at h
        · cases h
          obtain ⟨i1, i2, i3, i4, i5, i6, i7, i8, i9, i10, i11, i12, i13, i14, i15, i16, i17⟩ := hc
          constructor <;> first | assumption | grind [setKey, tokDeleting, Cleared, tokHalf]
        · cases h
    · cases h
  | arrive =>
    simp only [tokAct] at h
    split at h
    · split at h
      · cases h
      · cases h
        obtain ⟨i1, i2, i3, i4, i5, i6, i7, i8, i9, i10, i11, i12, i13, i14, i15, i16, i17⟩ := hc
        constructor <;> first | assumption | grind [setKey, tokDeleting, Cleared, tokHalf]
    · cases h
  | preLoad yes =>
    simp only [tokAct] at h
    split at h
    · cases h
      obtain ⟨i1, i2, i3, i4, i5, i6, i7, i8, i9, i10, i11, i12, i13, i14, i15, i16, i17⟩ := hc
      cases yes
      · simp only [Bool.false_eq_true, if_false]
        constructor <;> first | assumption | grind [setKey, tokDeleting, Cleared, tokHalf]
      · simp only [if_true]
        constructor <;> first | assumption | grind [setKey, tokDeleting, Cleared, tokHalf]
    · cases h
  | delete k =>
    simp only [tokAct] at h
    split at h
    · rename_i hh
      cases h
      obtain ⟨hp, hg, hnd⟩ := hh
      have hne : ∀ g, Cleared (s.deleted) s.tpc g → g ≠ k := fun g hg e => hnd (e ▸ hg.1)
      obtain ⟨i1, i2, i3, i4, i5, i6, i7, i8, i9, i10, i11, i12, i13, i14, i15, i16, i17⟩ := hc
      constructor <;> first | assumption | grind [setKey, tokDeleting, Cleared, tokHalf]
    · cases h

theorem tc_run {cfg : TokPass} (hok : TokPassOk cfg) (hcc : ChunkByChunk cfg.items) (h2 : TwoEach cfg.items) (as : List TokAct) {s s' : TokThreads}
    (hi : TTInv cfg s) (hc : TTClose cfg.items s) (h : tokActs cfg as s = some s') : TTInv cfg s' ∧ TTClose cfg.items s' := by
  induction as generalizing s with
  | nil => cases h; exact ⟨hi, hc⟩
  | cons a as ih =>
    simp only [tokActs, Option.bind_eq_some_iff] at h
    obtain ⟨t, h1, h3⟩ := h
    exact ih (tt_step hok hcc hi h1) (tc_step hok h2 hi hc h1) h3

/-- **C77.** If at least two blocks of each chunk are read, closing and deleting do not get in each other's way: the thread never ends with an exception, and
the only line of the reader that raises one is the look-up of a buffer that the thread is about to set. -/
theorem c77_no_clash (data : List TokChunk) (bs sz : Nat) (items : List (Nat × Nat)) (hb : 0 < bs) (hd : TokData data sz) (hne : ∀ c ∈ data, c.2.flatten ≠ [])
    (hbl : BlocksOf data bs items) (hcc : ChunkByChunk items) (h2 : TwoEach items) (as : List TokAct) (s : TokThreads)
    (h : tokActs (tokPass data bs sz items) as .init = some s) :
    (∀ e, s.tpc ≠ .dead e) ∧
    ∀ s' e, tokReaderLine (tokPass data bs sz items) s = some s' → s'.rpc = .failed e →
      e = .keyError ∧ s.rpc = .get ∧ ∃ k j m, items[s.done]? = some (k, j) ∧ s.tpc = .setBuf k m := by
  have hok := tokPass_ok (bs := bs) hd hne items
  obtain ⟨hi, hc⟩ := tc_run hok hcc h2 as (tt_init _) (tc_init _) h
  have h0 : TTOut data bs items .init := ⟨by simp [TokThreads.init], (by intro e h; cases h), by intro e h; cases h⟩
  have ho := (tt_all hb hd hne hbl hcc as (tt_init _) h0 h).2
  refine ⟨hc.alive, ?_⟩
  intro s' e hs he
  have ho' := ttout_step hb hd hne hbl hi ho (a := .reader) hs
  have hke := ho'.reader e he
  subst hke
  refine ⟨rfl, ?_⟩
  have hout := ho'.out
  unfold tokReaderLine at hs
  split at hs
  case h_6 g gs hp =>
    split at hs
    · rename_i hn; exact absurd hn (hc.cbuf g gs hp)
    · cases hs; cases he
  case h_8 g gs hp =>
    split at hs
    · rename_i hn; exact absurd hn (hc.cmm g gs (.inl hp))
    · cases hs; cases he
  case h_9 g gs hp =>
    split at hs
    · rename_i hn; exact absurd hn (hc.cmm g gs (.inr hp))
    · cases hs; cases he
  case h_11 =>
    split at hs
    · cases hs
    · rename_i k j hit
      split at hs
      case h_9 hp =>
        split at hs
        · rename_i hn
          exact ⟨hp, k, j, by
            have hm := hi.got k j (.inl hp) hit
            rcases hi.bothSet k (tt_current hi hit) hm with h | ⟨m, h⟩ | ⟨m, j', h, _⟩
            · exact absurd hn h
            · exact ⟨m, hit, h⟩
            · rw [hp] at h; cases h⟩
        · cases hs; cases he
      case h_6 hp =>
        obtain ⟨h0, h1⟩ := hi.ready k j (by simp [hp, tokReady]) hit
        obtain ⟨f, c, hf, hc', hm⟩ := tokMap_whole hok h0 h1
        rw [hm] at hs
        cases hs
        cases he
      all_goals (repeat' split at hs)
      all_goals (first | cases hs | skip)
      all_goals (first | cases he | skip)
      all_goals (simp only at he; split at he <;> cases he)
  all_goals (repeat' split at hs)
  all_goals (first | cases hs | skip)
  all_goals (first | cases he | skip)
  all_goals (simp only at he; split at he <;> cases he)

/-- The thread is loading a chunk ahead. -/
def tokAhead : TokTpc → Bool
  | .known _ | .there _ | .count _ | .test _ | .map _ | .setMap _ _ | .setBuf _ _ => true
  | _ => false

theorem never_ahead {cfg : TokPass} (as : List TokAct) (ha : TokAct.preLoad true ∉ as) {s s' : TokThreads} (h0 : tokAhead s.tpc = false)
    (h : tokActs cfg as s = some s') : tokAhead s'.tpc = false := by
  induction as generalizing s with
  | nil => cases h; exact h0
  | cons a as ih =>
    simp only [tokActs, Option.bind_eq_some_iff] at h
    obtain ⟨t, h1, h3⟩ := h
    simp only [List.mem_cons, not_or] at ha
    refine ih ha.2 ?_ h3
    cases a with
    | reader =>
      have : t.tpc = s.tpc := by
        simp only [tokAct, tokReaderLine] at h1
        (repeat' split at h1) <;> first | (cases h1; rfl) | (cases h1; done)
      rw [this]; exact h0
    | fetch k => simp only [tokAct] at h1; split at h1 <;> cases h1; simp only; split <;> rfl
    | part n =>
      have : t.tpc = s.tpc := by
        simp only [tokAct] at h1
        (repeat' split at h1) <;> first | (cases h1; rfl) | (cases h1; done)
      rw [this]; exact h0
    | arrive =>
      simp only [tokAct] at h1
      (repeat' split at h1) <;> first | (cases h1; rfl) | (cases h1; done)
    | preLoad yes =>
      simp only [tokAct] at h1
      cases yes
      · split at h1 <;> cases h1
        rfl
      · exact absurd rfl ha.1
    | delete k => simp only [tokAct] at h1; split at h1 <;> cases h1; rfl
    | line =>
      simp only [tokAct, tokThreadLine] at h1
      split at h1
      all_goals (rename_i hp; first | (rw [hp] at h0; simp only [tokAhead] at h0; cases h0; done) | skip)
      all_goals (try split at h1)
      all_goals (first | cases h1 | skip)
      all_goals first | rfl | (simp only; split <;> rfl)

theorem never_failed {data : List TokChunk} {bs sz : Nat} {items : List (Nat × Nat)} (hb : 0 < bs) (hd : TokData data sz) (hne : ∀ c ∈ data, c.2.flatten ≠ [])
    (hbl : BlocksOf data bs items) (hcc : ChunkByChunk items) (h2 : TwoEach items) (as : List TokAct) (ha : TokAct.preLoad true ∉ as) (s : TokThreads)
    (h : tokActs (tokPass data bs sz items) as .init = some s) : ∀ e, s.rpc ≠ .failed e := by
  suffices H : ∀ (bs' : List TokAct) (t : TokThreads) (pre : List TokAct), tokActs (tokPass data bs sz items) pre .init = some t → (∀ e, t.rpc ≠ .failed e) →
      TokAct.preLoad true ∉ pre → TokAct.preLoad true ∉ bs' → ∀ u, tokActs (tokPass data bs sz items) bs' t = some u → ∀ e, u.rpc ≠ .failed e from
    H as .init [] rfl (by intro e h; cases h) (by simp) ha s h
  intro bs'
  induction bs' with
  | nil => intro t pre _ ht _ _ u hu; cases hu; exact ht
  | cons a as ih =>
    intro t pre hpre ht hp1 hp2 u hu
    simp only [tokActs, Option.bind_eq_some_iff] at hu
    obtain ⟨v, h1, h3⟩ := hu
    simp only [List.mem_cons, not_or] at hp2
    have hv : tokActs (tokPass data bs sz items) (pre ++ [a]) .init = some v := by
      have : ∀ (l : List TokAct) (x : TokThreads), tokActs (tokPass data bs sz items) l x = some t → tokActs (tokPass data bs sz items) (l ++ [a]) x = some v := by
        intro l
        induction l with
        | nil => intro x hx; cases hx; simp [tokActs, h1]
        | cons b l ihl =>
          intro x hx
          simp only [tokActs, Option.bind_eq_some_iff] at hx
          obtain ⟨y, hy, hy'⟩ := hx
          simp only [List.cons_append, tokActs, hy, Option.bind_some]
          exact ihl y hy'
      exact this pre _ hpre
    refine ih v (pre ++ [a]) hv ?_ (by simp only [List.mem_append, List.mem_singleton, not_or]; exact ⟨hp1, hp2.1⟩) hp2.2 u h3
    intro e he
    cases a with
    | reader =>
      obtain ⟨_, _, k, j, m, _, hm⟩ := (c77_no_clash data bs sz items hb hd hne hbl hcc h2 pre t hpre).2 v e h1 he
      have := never_ahead pre hp1 (by rfl) hpre
      rw [hm] at this
      cases this
    | _ =>
      have : v.rpc = t.rpc := by
        simp only [tokAct, tokThreadLine] at h1
        (repeat' split at h1) <;> first | (cases h1; rfl) | (cases h1; done)
      rw [this] at he
      exact ht e he

/-- **C77.** If chunks are not loaded ahead (`max_pre_download=1`) and at least two blocks of each chunk are read, then nothing fails: the blocks delivered are those asked
for, neither the reader nor the thread raises an exception, and the reader always goes on, unless all blocks are delivered or the file of the chunk is not whole yet. -/
theorem c77_nothing_fails (data : List TokChunk) (bs sz : Nat) (items : List (Nat × Nat)) (hb : 0 < bs) (hd : TokData data sz) (hne : ∀ c ∈ data, c.2.flatten ≠ [])
    (hbl : BlocksOf data bs items) (hcc : ChunkByChunk items) (h2 : TwoEach items) (as : List TokAct) (ha : TokAct.preLoad true ∉ as) (s : TokThreads)
    (h : tokActs (tokPass data bs sz items) as .init = some s) :
    s.out = (askedBlocks data bs items).take s.done ∧ (∀ e, s.tpc ≠ .dead e) ∧ (∀ e, s.rpc ≠ .failed e) ∧
    (tokReaderLine (tokPass data bs sz items) s = none →
      s.out = askedBlocks data bs items ∨ ∃ k j c, items[s.done]? = some (k, j) ∧ data[k]? = some c ∧ s.file k ≠ some (tokFile c)) := by
  have h1 := c77_blocks_partial data bs sz items hb hd hne hbl hcc as s h
  have h3 := c77_no_clash data bs sz items hb hd hne hbl hcc h2 as s h
  have h4 := never_failed hb hd hne hbl hcc h2 as ha s h
  refine ⟨h1.1, h3.1, h4, ?_⟩
  intro hn
  unfold tokReaderLine at hn
  split at hn
  case h_10 e hp => exact absurd hp (h4 e)
  case h_11 hn1 hn2 hn3 hn4 hn5 hn6 hn7 hn8 hn9 hn10 =>
    split at hn
    · rename_i hnone
      have : items.length ≤ s.done := List.getElem?_eq_none_iff.1 hnone
      left
      rw [h1.1, List.take_of_length_le (by simp [askedBlocks]; exact this)]
    · rename_i k j hit
      obtain ⟨c, hc, hj⟩ := hbl (k, j) (List.mem_of_getElem? hit)
      right
      refine ⟨k, j, c, hit, hc, ?_⟩
      intro hf
      split at hn
      case h_3 hp =>
        simp only [tokPass, List.getElem?_map, show data[k]? = some c from hc, Option.map_some, hf] at hn
        rw [if_pos (show (tokInfo c).chunkBytes ≤ (tokFile c).length from Nat.le_refl _)] at hn
        cases hn
      case h_11 q9 q10 =>
        rename_i q1 q2 q3 q4 q5 q6 q7 q8
        cases hr : s.rpc with
        | idle => exact q1 hr
        | look => exact q2 hr
        | wait => exact q3 hr
        | count => exact q4 hr
        | test => exact q5 hr
        | map => exact q6 hr
        | setMap m => exact q7 m hr
        | setBuf m => exact q8 m hr
        | get => exact q9 hr
        | view m => exact q10 m hr
        | failed e => exact h4 e hr
        | give gs => cases gs with
          | nil => exact hn1 hr
          | cons g gs => exact hn2 g gs hr
        | close g l gs => cases l with
          | count => exact hn3 g gs hr
          | test => exact hn4 g gs hr
          | testBuf => exact hn5 g gs hr
          | buf => exact hn6 g gs hr
          | testMap => exact hn7 g gs hr
          | unmap => exact hn8 g gs hr
          | map => exact hn9 g gs hr
      all_goals (repeat' split at hn) <;> cases hn
  all_goals (repeat' split at hn) <;> cases hn

/-! The hypotheses are met by two chunks of two tokens each, read in blocks of one token. -/

def demoFour : List (Nat × Nat) := [(0, 1), (0, 0), (1, 0), (1, 1)]

theorem demoTwo_data : TokData demoTwo 2 := by
  constructor
  · intro c hc d hd h
    simp only [demoTwo, List.mem_cons, List.not_mem_nil, or_false] at hc hd
    rcases hc with rfl | rfl <;> rcases hd with rfl | rfl <;> first | rfl | (exact absurd h (by decide))
  · decide
  · decide

example : (0 : Nat) < 1 ∧ TokData demoTwo 2 ∧ (∀ c ∈ demoTwo, c.2.flatten ≠ []) ∧ BlocksOf demoTwo 1 demoFour ∧ TwoEach demoFour ∧ ChunkByChunk demoFour := by
  refine ⟨by decide, demoTwo_data, by decide, ?_, by unfold TwoEach; decide, ?_⟩
  · intro x hx
    simp only [demoFour, List.mem_cons, List.not_mem_nil, or_false] at hx
    rcases hx with rfl | rfl | rfl | rfl
    · exact ⟨_, rfl, by decide⟩
    · exact ⟨_, rfl, by decide⟩
    · exact ⟨_, rfl, by decide⟩
    · exact ⟨_, rfl, by decide⟩
  · intro i g j k l h1 h2 hne
    match i with
    | 0 => cases h1; cases h2; exact absurd rfl hne
    | 1 =>
      cases h1; cases h2
      intro i' k' j' hi hk
      match i' with
      | 0 => omega
      | 1 => omega
      | 2 => cases hk; decide
      | 3 => cases hk; decide
      | n + 4 => cases hk
    | 2 => cases h1; cases h2; exact absurd rfl hne
    | 3 => cases h2
    | n + 4 => cases h1

/-- A whole pass: chunk 0 is deleted while the reader closes it, and all four blocks are delivered. -/
example : (tokActs (tokPass demoTwo 1 2 demoFour)
    ([.fetch 0, .part 5] ++ readerLines 2 ++ [.arrive, .preLoad false] ++ readerLines 9 ++ readerLines 7 ++ [.fetch 1, .arrive, .preLoad false] ++ readerLines 12 ++
      [.delete 0] ++ threadLines 3 ++ readerLines 2 ++ threadLines 5 ++ readerLines 10) .init).map
    (fun s => (s.out, s.tpc, s.rpc)) = some (askedBlocks demoTwo 1 demoFour, .idle, .idle) := by decide +kernel

end LitData.Props
