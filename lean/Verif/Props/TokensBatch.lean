import Verif.Model.TokensBatch
import Verif.Props.TokensThreadsSafe

/-! Property C87: batches of blocks of tokens from a remote folder. -/

namespace LitData.Props
open LitData Spec

theorem tokAct_deleted {cfg : TokPass} {s s' : TokThreads} {a : TokAct} (h : tokAct cfg s a = some s') : ∀ g ∈ s.deleted, g ∈ s'.deleted := by
  intro g hg
  cases a with
  | reader =>
    simp only [tokAct, tokReaderLine] at h
    (repeat' split at h) <;> first | (cases h; exact hg) | (cases h; done)
  | line =>
    simp only [tokAct, tokThreadLine] at h
    (repeat' split at h) <;> first | (cases h; exact hg) | (cases h; done)
  | _ =>
    simp only [tokAct] at h
    (repeat' split at h) <;> first | (cases h; exact hg) | (cases h; done) | (cases h; simp [hg])

/-- A memory map stays that of its chunk. -/
theorem tokAct_maps {cfg : TokPass} {s s' : TokThreads} {a : TokAct} (hi : TTInv cfg s) (h : tokAct cfg s a = some s') (m k : Nat)
    (hm : ∃ c, s.maps[m]? = some (k, c)) : ∃ c, s'.maps[m]? = some (k, c) := by
  have happ : ∀ x, ∃ c, (s.maps ++ [x])[m]? = some (k, c) := by
    intro x
    obtain ⟨c, hc⟩ := hm
    rw [get_append_one, if_neg (by intro e; subst e; simp at hc)]
    exact ⟨c, hc⟩
  have hset : ∀ m' k', s.mm k' = some m' → ∃ c, (s.maps.set m' (k', none))[m]? = some (k, c) := by
    intro m' k' h'
    obtain ⟨c0, h0⟩ := hi.mm k' m' h'
    have hlt : m' < s.maps.length := (List.getElem?_eq_some_iff.1 h0).1
    obtain ⟨c, hc⟩ := hm
    rw [List.getElem?_set]
    split
    · rename_i e; subst e; rw [h0] at hc; cases hc; simp
    · exact ⟨c, hc⟩
  cases a with
  | reader =>
    simp only [tokAct, tokReaderLine] at h
    (repeat' split at h) <;> first | (cases h; exact hm) | (cases h; done) | (cases h; exact happ _) | (cases h; exact hset _ _ (by assumption))
  | line =>
    simp only [tokAct, tokThreadLine] at h
    (repeat' split at h) <;> first | (cases h; exact hm) | (cases h; done) | (cases h; exact happ _) | (cases h; exact hset _ _ (by assumption))
  | _ =>
    simp only [tokAct] at h
    (repeat' split at h) <;> first | (cases h; exact hm) | (cases h; done)

/-- With two blocks of every chunk, only `delete` unmaps. -/
theorem tokAct_unmapped {cfg : TokPass} {s s' : TokThreads} {a : TokAct} (hc : TTClose cfg.items s)
    (hu : ∀ m k : Nat, s.maps[m]? = some (k, none) → k ∈ s.deleted) (h : tokAct cfg s a = some s') :
    ∀ m k : Nat, s'.maps[m]? = some (k, none) → k ∈ s'.deleted := by
  have hd := tokAct_deleted h
  intro m k hm
  have happ : ∀ k' b, (s.maps ++ [(k', some b)])[m]? = some (k, none) → k ∈ s.deleted := by
    intro k' b h
    rw [get_append_one] at h
    split at h
    · cases h
    · exact hu m k h
  have hset : ∀ m' k', (s.maps.set m' (k', none))[m]? = some (k, none) → k' ∈ s.deleted → k ∈ s.deleted := by
    intro m' k' h h'
    rw [List.getElem?_set] at h
    split at h
    · split at h
      · cases h; exact h'
      · cases h
    · exact hu m k h
  apply hd
  cases a with
  | reader =>
    simp only [tokAct, tokReaderLine] at h
    split at h
    case h_8 g gs hp =>
      split at h
      · cases h; exact hu m k hm
      · cases h; exact hset _ _ hm (hc.clearing g (by rw [hp]; rfl)).1
    all_goals (repeat' split at h) <;> first | (cases h; exact hu m k hm) | (cases h; done) | (cases h; exact happ _ _ hm)
  | line =>
    simp only [tokAct, tokThreadLine] at h
    split at h
    case h_12 g hp =>
      split at h
      · cases h; exact hu m k hm
      · cases h; exact hset _ _ hm (hc.deleted g (by rw [hp]; rfl))
    all_goals (repeat' split at h) <;> first | (cases h; exact hu m k hm) | (cases h; done) | (cases h; exact happ _ _ hm)
  | _ =>
    simp only [tokAct] at h
    (repeat' split at h) <;> first | (cases h; exact hu m k hm) | (cases h; done)

/-- Only the line of the reader that makes the view delivers a block. -/
theorem tokAct_done {cfg : TokPass} {s s' : TokThreads} {a : TokAct} (h : tokAct cfg s a = some s') :
    (s'.done = s.done ∧ (a = .reader → newView cfg s s' = [])) ∨
    (a = .reader ∧ ∃ m k j, s.rpc = .view m ∧ cfg.items[s.done]? = some (k, j) ∧ s'.done = s.done + 1 ∧ newView cfg s s' = [(m, j)]) := by
  have hnil : s'.done = s.done → newView cfg s s' = [] := by
    intro h
    unfold newView
    split
    · rw [if_pos h]
    · rfl
  by_cases hd : s'.done = s.done
  · exact .inl ⟨hd, fun _ => hnil hd⟩
  right
  cases a with
  | reader =>
    refine ⟨rfl, ?_⟩
    simp only [tokAct, tokReaderLine] at h
    split at h
    case h_11 =>
      split at h
      · cases h
      · rename_i k j hit
        split at h
        case h_10 m hp =>
          split at h
          · split at h
            · cases h
              exact ⟨m, k, j, hp, hit, rfl, by simp [newView, hp, hit]⟩
            · cases h; exact absurd rfl hd
          · cases h; exact absurd rfl hd
        all_goals (repeat' split at h) <;> first | (cases h; exact absurd rfl hd) | (cases h; done)
    all_goals (repeat' split at h) <;> first | (cases h; exact absurd rfl hd) | (cases h; done)
  | line =>
    simp only [tokAct, tokThreadLine] at h
    (repeat' split at h) <;> first | (cases h; exact absurd rfl hd) | (cases h; done)
  | _ =>
    simp only [tokAct] at h
    (repeat' split at h) <;> first | (cases h; exact absurd rfl hd) | (cases h; done)

/-- Before the end of the pass, the chunk of the block delivered last is not given up. -/
def KeepsLast (items : List (Nat × Nat)) (s : TokThreads) : Prop :=
  s.done < items.length → ∀ g, g ∈ s.given ∨ g ∈ pendingGives s.rpc → NotAhead items (s.done - 1) g

theorem keepsLast_step {cfg : TokPass} (hcc : ChunkByChunk cfg.items) {s s' : TokThreads} {a : TokAct} (hi : TTInv cfg s) (hk : KeepsLast cfg.items s)
    (h : tokAct cfg s a = some s') : KeepsLast cfg.items s' := by
  have same : s'.done = s.done → (∀ g, g ∈ s'.given ∨ g ∈ pendingGives s'.rpc → g ∈ s.given ∨ g ∈ pendingGives s.rpc) → KeepsLast cfg.items s' := by
    intro hd hg hlt g h
    rw [hd]
    exact hk (by rw [← hd]; exact hlt) g (hg g h)
  cases a with
  | reader =>
    simp only [tokAct, tokReaderLine] at h
    split at h
    case h_2 g gs hp =>
      cases h
      refine same rfl ?_
      intro x hx
      simp only [pendingGives, hp, List.mem_append, List.mem_cons, List.not_mem_nil, or_false] at hx ⊢
      rcases hx with (h | h) | h
      · exact .inl h
      · exact .inr (.inl h)
      · exact .inr (.inr h)
    case h_11 =>
      split at h
      · cases h
      · rename_i k j hit
        split at h
        case h_10 m hp =>
          split at h
          · split at h
            · cases h
              intro hlt g hg
              simp only [pendingGives] at hlt hg
              have hend : ¬ s.done + 1 = cfg.items.length := by have := hlt; omega
              simp only [hend, if_false, List.append_nil] at hg
              simp only [Nat.add_sub_cancel]
              rcases hg with hg | hg
              · intro i k' j' hi' hit'
                exact hk (Nat.lt_of_succ_lt hlt) g (.inl hg) i k' j' (by omega) hit'
              · by_cases hl : s.last = some k
                · simp [hl] at hg
                · rw [if_neg hl] at hg
                  obtain ⟨l, hl2, rfl⟩ : ∃ l, s.last = some l ∧ g = l := by
                    cases hls : s.last with
                    | none => simp [hls] at hg
                    | some l => simp [hls] at hg; exact ⟨l, rfl, hg⟩
                  obtain ⟨j2, h2⟩ := hi.last1 g hl2
                  have hne : k ≠ g := fun e => hl (e ▸ hl2)
                  have hpos : s.done ≠ 0 := by
                    intro e
                    rw [e] at h2 hit
                    rw [hit] at h2
                    cases h2
                    exact hne rfl
                  have h3 := hcc (s.done - 1) g j2 k j h2 (by rw [Nat.sub_add_cancel (by omega)]; exact hit) hne
                  rw [Nat.sub_add_cancel (by omega)] at h3
                  exact h3
            · cases h; exact same rfl (fun g hg => .inl (by simpa [pendingGives] using hg))
          · cases h; exact same rfl (fun g hg => .inl (by simpa [pendingGives] using hg))
        all_goals (repeat' split at h) <;> first | (cases h; done) | (cases h; refine same rfl ?_; intro x hx; first | exact .inl (by simpa [pendingGives] using hx) | (split at hx <;> exact .inl (by simpa [pendingGives] using hx)))
    all_goals (repeat' split at h) <;> first | (cases h; done) | (cases h; refine same rfl ?_; intro x hx; simp only at hx; first | exact .inl (by simpa [pendingGives] using hx) | (rename_i hp; simpa [pendingGives, hp] using hx) | (rename_i hp _; simpa [pendingGives, hp] using hx) | grind [pendingGives])
  | line =>
    simp only [tokAct, tokThreadLine] at h
    (repeat' split at h) <;> first | (cases h; exact same rfl (fun g h => h)) | (cases h; done)
  | _ =>
    simp only [tokAct] at h
    (repeat' split at h) <;> first | (cases h; exact same rfl (fun g h => h)) | (cases h; done)

/-- Batch `i` of size `n`. -/
def batchAt {α : Type} (n i : Nat) (l : List α) : List α := (l.drop (i * n)).take n

/-- Batch `i` has blocks of several chunks, or is the last one. -/
def SpansOrLast (items : List (Nat × Nat)) (n i : Nat) : Prop :=
  items.length ≤ i * n + n ∨ ∃ p q k j k' j', i * n ≤ p ∧ p < i * n + n ∧ i * n ≤ q ∧ q < i * n + n ∧ items[p]? = some (k, j) ∧ items[q]? = some (k', j') ∧ k ≠ k'

/-- Some block of batch `i` is of a chunk among `gs`. -/
def HasChunk (items : List (Nat × Nat)) (n i : Nat) (gs : List Nat) : Prop := ∃ p k j, i * n ≤ p ∧ p < i * n + n ∧ items[p]? = some (k, j) ∧ k ∈ gs

/-- The reader reads a block. -/
def tokReading : TokRpc → Bool
  | .look | .wait | .count | .test | .map | .setMap _ | .setBuf _ | .get | .view _ => true
  | _ => false

structure TBInv (data : List TokChunk) (bs sz n : Nat) (items : List (Nat × Nat)) (b : TokBatcher) : Prop where
  inv : TTInv (tokPass data bs sz items) b.s
  keeps : KeepsLast items b.s
  close : TwoEach items → TTClose items b.s ∧ ∀ m k : Nat, b.s.maps[m]? = some (k, none) → k ∈ b.s.deleted
  le : b.held.length ≤ n
  full : b.held.length = n → tokReading b.s.rpc = false
  pos : b.s.done = b.out.length * n + b.held.length ∨ (b.s.done = items.length ∧ b.held = [] ∧ items.length ≤ b.out.length * n ∧ b.out.length * n < items.length + n)
  views : ∀ (i m j : Nat), b.held[i]? = some (m, j) → ∃ k c, items[b.out.length * n + i]? = some (k, j) ∧ b.s.maps[m]? = some (k, c)
  outs : ∀ (i : Nat) x, b.out[i]? = some x → x = some (batchAt n i (askedBlocks data bs items)) ∨ (x = none ∧ SpansOrLast items n i ∧ (TwoEach items → HasChunk items n i b.s.deleted))

theorem mapM_all {α β : Type} (f : α → Option β) (l : List α) (r : List β) (hl : l.length = r.length)
    (h : ∀ (i : Nat) a, l[i]? = some a → f a = r[i]?) : l.mapM f = some r := by
  induction l generalizing r with
  | nil => cases r <;> simp_all
  | cons a l ih =>
    cases r with
    | nil => simp at hl
    | cons b r =>
      have h0 : f a = some b := h 0 a rfl
      have := ih r (by simpa using hl) (fun i a ha => by simpa using h (i + 1) a (by simpa using ha))
      simp [List.mapM_cons, h0, this]

theorem mapM_or {α β : Type} (f : α → Option β) (l : List α) (r : List β) (hl : l.length = r.length)
    (h : ∀ (i : Nat) a, l[i]? = some a → f a = r[i]? ∨ f a = none) : l.mapM f = some r ∨ (l.mapM f = none ∧ ∃ (i : Nat) (a : α), l[i]? = some a ∧ f a = none) := by
  classical
  by_cases hx : ∃ (i : Nat) (a : α), l[i]? = some a ∧ f a = none
  · refine .inr ⟨?_, hx⟩
    obtain ⟨i, a, hi, ha⟩ := hx
    clear h hl
    induction l generalizing i with
    | nil => simp at hi
    | cons c l ih =>
      cases i with
      | zero => simp at hi; subst hi; simp [List.mapM_cons, ha]
      | succ i =>
        have := ih i (by simpa using hi)
        cases hc : f c <;> simp [List.mapM_cons, this, hc]
  · refine .inl (mapM_all f l r hl ?_)
    intro i a hi
    rcases h i a hi with h | h
    · exact h
    · exact absurd ⟨i, a, hi, h⟩ hx

theorem readView_right {data : List TokChunk} {bs sz : Nat} {items : List (Nat × Nat)} (hb : 0 < bs) (hd : TokData data sz)
    (hbl : BlocksOf data bs items) {s : TokThreads} (hi : TTInv (tokPass data bs sz items) s) {p k j m : Nat} {c : Option Bytes}
    (hit : items[p]? = some (k, j)) (hm : s.maps[m]? = some (k, c)) :
    (readView (tokPass data bs sz items) s (m, j) = (askedBlocks data bs items)[p]? ∧ c ≠ none) ∨
    (readView (tokPass data bs sz items) s (m, j) = none ∧ c = none) := by
  cases c with
  | none => right; simp [readView, hm]
  | some b =>
    left
    refine ⟨?_, by simp⟩
    obtain ⟨c, hc, hj⟩ := hbl (k, j) (List.mem_of_getElem? hit)
    simp only at hc hj
    obtain ⟨f, i, hf, hi', hbb⟩ := hi.mapped m k b hm
    simp only [tokPass, hc, Option.map_some, Option.some.injEq, List.getElem?_map] at hf hi'
    subst hf hi'
    rw [tokFile_drop] at hbb
    subst hbb
    obtain ⟨_, hblk⟩ := block_bytes hb hd hc hj
    simp only [readView, hm]
    show some (groups sz bs (c.2.flatten.flatten.drop (sz * j * bs))) = _
    rw [hblk]
    simp [askedBlocks, hit, hc]

theorem tb_collate {data : List TokChunk} {bs sz n : Nat} {items : List (Nat × Nat)} (hb : 0 < bs) (hn : 0 < n) (hd : TokData data sz)
    (hbl : BlocksOf data bs items) {b b' : TokBatcher} (hi : TBInv data bs sz n items b)
    (h : tokBatchAct (tokPass data bs sz items) n b .collate = some b') : TBInv data bs sz n items b' := by
  simp only [tokBatchAct] at h
  split at h
  case isFalse => cases h
  rename_i hh
  cases h
  obtain ⟨hidle, hfull⟩ := hh
  simp only [batchFull, Bool.and_eq_true, Bool.not_eq_true', Bool.or_eq_true, beq_iff_eq] at hfull
  obtain ⟨hne, hfull⟩ := hfull
  have hne' : b.held ≠ [] := by intro e; rw [e] at hne; simp at hne
  have hlen : 0 < b.held.length := List.length_pos_iff.2 hne'
  have hend : (tokPass data bs sz items).items.length = items.length := rfl
  rw [hend] at hfull
  have hpos : b.s.done = b.out.length * n + b.held.length := by
    rcases hi.pos with h | ⟨_, h, _⟩
    · exact h
    · exact absurd h hne'
  have hle := hi.inv.le
  rw [hend] at hle
  have hal : (askedBlocks data bs items).length = items.length := by simp [askedBlocks]
  have hbl' : b.held.length = (batchAt n b.out.length (askedBlocks data bs items)).length := by
    simp only [batchAt, List.length_take, List.length_drop, hal]
    have := hi.le
    rcases hfull with h | h <;> omega
  have hbat : ∀ i : Nat, i < b.held.length → (batchAt n b.out.length (askedBlocks data bs items))[i]? = (askedBlocks data bs items)[b.out.length * n + i]? := by
    intro i hlt
    have := hi.le
    simp only [batchAt]
    rw [List.getElem?_take_of_lt (by omega), List.getElem?_drop]
  have hres := mapM_or (readView (tokPass data bs sz items) b.s) b.held (batchAt n b.out.length (askedBlocks data bs items)) hbl' (by
    intro i a ha
    obtain ⟨m, j⟩ := a
    obtain ⟨k, c, hit, hm⟩ := hi.views i m j ha
    rw [hbat i (List.getElem?_eq_some_iff.1 ha).1]
    rcases readView_right hb hd hbl hi.inv hit hm with ⟨h, _⟩ | ⟨h, _⟩
    · exact .inl h
    · exact .inr h)
  refine ⟨hi.inv, hi.keeps, hi.close, Nat.zero_le _, fun _ => by rw [hidle]; rfl, ?_, (by intro i m j h; simp at h), ?_⟩
  · simp only [List.length_append, List.length_cons, List.length_nil, Nat.zero_add, Nat.add_mul, Nat.one_mul, Nat.add_zero]
    have := hi.le
    rcases hfull with h | h
    · left; omega
    · by_cases he : b.held.length = n
      · left; omega
      · right; exact ⟨h, trivial, by omega, by omega⟩
  · intro i x hx
    simp only at hx
    by_cases hlt : i < b.out.length
    · rw [List.getElem?_append_left hlt] at hx
      exact hi.outs i x hx
    · rw [List.getElem?_append_right (by omega)] at hx
      have hie : i = b.out.length := by
        have := (List.getElem?_eq_some_iff.1 hx).1
        simp at this
        omega
      subst hie
      simp only [Nat.sub_self, List.getElem?_cons_zero, Option.some.injEq] at hx
      subst hx
      rcases hres with h | ⟨h, p, ⟨m, j⟩, hp, hv⟩
      · exact .inl h
      · refine .inr ⟨h, ?_⟩
        obtain ⟨k, c, hit, hm⟩ := hi.views p m j hp
        have hpl := (List.getElem?_eq_some_iff.1 hp).1
        have hlen2 := hi.le
        have hc : c = none := by
          rcases readView_right hb hd hbl hi.inv hit hm with ⟨h1, h2⟩ | ⟨_, h2⟩
          · rw [h1] at hv
            have := (List.getElem?_eq_none_iff.1 hv)
            have := (List.getElem?_eq_some_iff.1 hit).1
            omega
          · exact h2
        subst hc
        refine ⟨?_, ?_⟩
        · by_cases hlast : items.length ≤ b.out.length * n + n
          · exact .inl hlast
          · right
            have hheld : b.held.length = n := by
              rcases hfull with h | h
              · exact h
              · omega
            have hgiven := hi.inv.unmapped m k hm
            have hk := hi.keeps (by omega) k (.inl hgiven)
            obtain ⟨x, hx⟩ : ∃ x, items[b.s.done - 1]? = some x := ⟨items[b.s.done - 1]'(by omega), List.getElem?_eq_getElem (by omega)⟩
            refine ⟨b.out.length * n + p, b.s.done - 1, k, j, x.1, x.2, by omega, by omega, by omega, by omega, hit, hx, ?_⟩
            exact fun e => hk (b.s.done - 1) x.1 x.2 (Nat.le_refl _) hx e.symm
        · intro h2
          exact ⟨b.out.length * n + p, k, j, by omega, by omega, hit, (hi.close h2).2 m k hm⟩

theorem tokReading_step {cfg : TokPass} {s s' : TokThreads} {a : TokAct} (h : tokAct cfg s a = some s') (h0 : tokReading s.rpc = false) :
    tokReading s'.rpc = false ∨ (a = .reader ∧ s.rpc = .idle) := by
  cases a with
  | reader =>
    by_cases hid : s.rpc = .idle
    · exact .inr ⟨rfl, hid⟩
    left
    simp only [tokAct, tokReaderLine] at h
    split at h
    case h_11 =>
      split at h
      · cases h
      · split at h
        case h_1 hp => exact absurd hp hid
        case h_11 => cases h
        all_goals (rename_i hp; rw [hp] at h0; cases h0)
    all_goals (repeat' split at h) <;> first | (cases h; done) | (cases h; rfl) | (cases h; simp only; split <;> rfl)
  | line =>
    left
    simp only [tokAct, tokThreadLine] at h
    (repeat' split at h) <;> first | (cases h; done) | (cases h; exact h0)
  | _ =>
    left
    simp only [tokAct] at h
    (repeat' split at h) <;> first | (cases h; done) | (cases h; exact h0)

theorem tb_act {data : List TokChunk} {bs sz n : Nat} {items : List (Nat × Nat)} (hn : 0 < n) (hd : TokData data sz) (hne : ∀ c ∈ data, c.2.flatten ≠ [])
    (hcc : ChunkByChunk items) {b b' : TokBatcher} {a : TokAct} (hi : TBInv data bs sz n items b)
    (h : tokBatchAct (tokPass data bs sz items) n b (.act a) = some b') : TBInv data bs sz n items b' := by
  simp only [tokBatchAct] at h
  split at h
  · cases h
  rename_i hguard
  split at h
  · cases h
  rename_i s' hs
  cases h
  have hok := tokPass_ok (bs := bs) hd hne items
  have hinv := tt_step hok hcc hi.inv hs
  have hmaps := tokAct_maps hi.inv hs
  have houts : ∀ (i : Nat) x, b.out[i]? = some x →
      x = some (batchAt n i (askedBlocks data bs items)) ∨ (x = none ∧ SpansOrLast items n i ∧ (TwoEach items → HasChunk items n i s'.deleted)) := by
    intro i x hx
    rcases hi.outs i x hx with h | ⟨h1, h2, h3⟩
    · exact .inl h
    · refine .inr ⟨h1, h2, fun h => ?_⟩
      obtain ⟨p, k, j, q1, q2, q3, q4⟩ := h3 h
      exact ⟨p, k, j, q1, q2, q3, tokAct_deleted hs k q4⟩
  have hclose : TwoEach items → TTClose items s' ∧ ∀ m k : Nat, s'.maps[m]? = some (k, none) → k ∈ s'.deleted := fun h2 =>
    ⟨tc_step hok h2 hi.inv (hi.close h2).1 hs, tokAct_unmapped (hi.close h2).1 (hi.close h2).2 hs⟩
  have hkeeps := keepsLast_step (cfg := tokPass data bs sz items) hcc hi.inv hi.keeps hs
  rcases tokAct_done hs with ⟨hdone, hv⟩ | ⟨ha, m, k, j, hp, hit, hdone, hv⟩
  · have hnew : (if a = .reader then newView (tokPass data bs sz items) b.s s' else []) = [] := by
      split
      · rename_i e; exact hv e
      · rfl
    rw [hnew, List.append_nil]
    refine ⟨hinv, hkeeps, hclose, hi.le, ?_, ?_, ?_, houts⟩
    · intro hl
      rcases tokReading_step hs (hi.full hl) with h | ⟨h1, h2⟩
      · exact h
      · refine absurd ⟨h1, h2, ?_⟩ hguard
        simp only [batchFull, Bool.and_eq_true, Bool.not_eq_true', Bool.or_eq_true, beq_iff_eq]
        refine ⟨?_, .inl hl⟩
        cases hh : b.held
        · rw [hh] at hl; simp at hl; omega
        · rfl
    · simp only [hdone]; exact hi.pos
    · intro i m j h
      obtain ⟨k, c, h1, h2⟩ := hi.views i m j h
      obtain ⟨c', h3⟩ := hmaps m k ⟨c, h2⟩
      exact ⟨k, c', h1, h3⟩
  · subst ha
    have hit' : items[b.s.done]? = some (k, j) := hit
    have hlt := (List.getElem?_eq_some_iff.1 hit').1
    have hpos : b.s.done = b.out.length * n + b.held.length := by
      rcases hi.pos with h | ⟨h, _⟩
      · exact h
      · omega
    have hlen : b.held.length < n := by
      rcases Nat.lt_or_eq_of_le hi.le with h | h
      · exact h
      · have := hi.full h
        rw [hp] at this
        cases this
    simp only [if_true, hv]
    refine ⟨hinv, hkeeps, hclose, by simp; omega, ?_, .inl (by simp [hdone, hpos]; omega), ?_, houts⟩
    · intro _
      simp only [tokAct, tokReaderLine, hp, hit] at hs
      (repeat' split at hs) <;> first | (cases hs; rfl) | (cases hs; done)
    · intro i m' j' h
      by_cases hil : i < b.held.length
      · simp only [List.getElem?_append_left hil] at h
        obtain ⟨k, c, h1, h2⟩ := hi.views i m' j' h
        obtain ⟨c', h3⟩ := hmaps m' k ⟨c, h2⟩
        exact ⟨k, c', h1, h3⟩
      · have hie : i = b.held.length := by
          have := (List.getElem?_eq_some_iff.1 h).1
          simp at this
          omega
        subst hie
        simp at h
        obtain ⟨rfl, rfl⟩ := h
        obtain ⟨c, hc⟩ := hmaps m k (hi.inv.rmap m k j (.inr (.inr hp)) hit)
        exact ⟨k, c, by rw [← hpos]; exact hit', hc⟩

theorem tb_run {data : List TokChunk} {bs sz n : Nat} {items : List (Nat × Nat)} (hb : 0 < bs) (hn : 0 < n) (hd : TokData data sz) (hne : ∀ c ∈ data, c.2.flatten ≠ [])
    (hbl : BlocksOf data bs items) (hcc : ChunkByChunk items) (as : List TokBatchAct) {b b' : TokBatcher} (hi : TBInv data bs sz n items b)
    (h : tokBatchActs (tokPass data bs sz items) n as b = some b') : TBInv data bs sz n items b' := by
  induction as generalizing b with
  | nil => cases h; exact hi
  | cons a as ih =>
    simp only [tokBatchActs, Option.bind_eq_some_iff] at h
    obtain ⟨t, h1, h2⟩ := h
    refine ih ?_ h2
    cases a with
    | act a => exact tb_act hn hd hne hcc hi h1
    | collate => exact tb_collate hb hn hd hbl hi h1

theorem tb_init {data : List TokChunk} {bs sz n : Nat} {items : List (Nat × Nat)} : TBInv data bs sz n items .init := by
  refine ⟨tt_init _, ?_, fun _ => ⟨tc_init _, by simp [TokBatcher.init, TokThreads.init]⟩, Nat.zero_le _, fun _ => rfl, .inl (by simp [TokBatcher.init, TokThreads.init]), ?_, ?_⟩
  · intro _ g h
    simp [TokBatcher.init, TokThreads.init, pendingGives] at h
  · intro i m j h; simp [TokBatcher.init] at h
  · intro i x h; simp [TokBatcher.init] at h

/-- **C87.** Tokens are stored in a remote folder and their blocks are asked for chunk after chunk, `n` to a batch. Whatever lines the thread executes between those of
the reader, every batch is either the right one, or, when it is collated, memory is read that is not mapped any more. The latter happens only to batches with
blocks of several chunks and to the last batch, and, if at least two blocks of each chunk are read, only if the thread has deleted the chunk of one of the blocks. At
the end of the pass, when no block waits for being collated, there are all batches. -/
theorem c87_batches_partial (data : List TokChunk) (bs sz n : Nat) (items : List (Nat × Nat)) (hb : 0 < bs) (hn : 0 < n) (hd : TokData data sz)
    (hne : ∀ c ∈ data, c.2.flatten ≠ []) (hbl : BlocksOf data bs items) (hcc : ChunkByChunk items) (as : List TokBatchAct) (b : TokBatcher)
    (h : tokBatchActs (tokPass data bs sz items) n as .init = some b) :
    (∀ (i : Nat) x, b.out[i]? = some x → x = some (batchAt n i (askedBlocks data bs items)) ∨
      (x = none ∧ SpansOrLast items n i ∧ (TwoEach items → HasChunk items n i b.s.deleted))) ∧
    (b.s.done = items.length → b.held = [] → b.out.length = (items.length + n - 1) / n) := by
  have hi := tb_run hb hn hd hne hbl hcc as tb_init h
  refine ⟨hi.outs, ?_⟩
  intro hend hh
  have hp := hi.pos
  rw [hh, hend] at hp
  symm
  have key : b.out.length * n ≤ items.length + n - 1 ∧ items.length + n - 1 < (b.out.length + 1) * n := by
    rw [Nat.add_mul, Nat.one_mul]
    rcases hp with h | ⟨_, _, h1, h2⟩
    · simp at h; omega
    · omega
  exact Nat.div_eq_of_lt_le key.1 key.2

/-- **C87.** If at least two blocks of each chunk are read and the thread deletes nothing during the pass (the cache limit is not reached), all batches are right. -/
theorem c87_no_deletion (data : List TokChunk) (bs sz n : Nat) (items : List (Nat × Nat)) (hb : 0 < bs) (hn : 0 < n) (hd : TokData data sz)
    (hne : ∀ c ∈ data, c.2.flatten ≠ []) (hbl : BlocksOf data bs items) (hcc : ChunkByChunk items) (h2 : TwoEach items) (as : List TokBatchAct)
    (hnd : ∀ k, TokBatchAct.act (.delete k) ∉ as) (b : TokBatcher)
    (h : tokBatchActs (tokPass data bs sz items) n as .init = some b) (hend : b.s.done = items.length) (hh : b.held = []) :
    b.out = (List.range ((items.length + n - 1) / n)).map fun i => some (batchAt n i (askedBlocks data bs items)) := by
  obtain ⟨ho, hl⟩ := c87_batches_partial data bs sz n items hb hn hd hne hbl hcc as b h
  have hdel : b.s.deleted = [] := by
    have : ∀ (as : List TokBatchAct) (b b' : TokBatcher), (∀ k, TokBatchAct.act (.delete k) ∉ as) → b.s.deleted = [] →
        tokBatchActs (tokPass data bs sz items) n as b = some b' → b'.s.deleted = [] := by
      intro as
      induction as with
      | nil => intro b b' _ h0 h; cases h; exact h0
      | cons a as ih =>
        intro b b' hnd h0 h
        simp only [tokBatchActs, Option.bind_eq_some_iff] at h
        obtain ⟨t, h1, h2⟩ := h
        refine ih t b' (fun k hk => hnd k (List.mem_cons_of_mem _ hk)) ?_ h2
        cases a with
        | collate => simp only [tokBatchAct] at h1; split at h1 <;> cases h1; exact h0
        | act a =>
          simp only [tokBatchAct] at h1
          split at h1
          · cases h1
          · split at h1
            · cases h1
            · rename_i s' hs
              cases h1
              simp only
              rw [← h0]
              cases a with
              | delete k => exact absurd (List.mem_cons_self) (hnd k)
              | reader =>
                simp only [tokAct, tokReaderLine] at hs
                (repeat' split at hs) <;> first | (cases hs; rfl) | (cases hs; done)
              | line =>
                simp only [tokAct, tokThreadLine] at hs
                (repeat' split at hs) <;> first | (cases hs; rfl) | (cases hs; done)
              | _ =>
                simp only [tokAct] at hs
                (repeat' split at hs) <;> first | (cases hs; rfl) | (cases hs; done)
    exact this as _ b hnd rfl h
  apply List.ext_getElem?
  intro i
  by_cases hi : i < b.out.length
  · have h1 := List.getElem?_eq_getElem hi
    rw [h1]
    rcases ho i _ h1 with h | ⟨_, _, h⟩
    · rw [h, List.getElem?_map, List.getElem?_range (by rw [← hl hend hh]; exact hi)]; rfl
    · obtain ⟨_, _, _, _, _, _, hk⟩ := h h2
      rw [hdel] at hk
      cases hk
  · rw [List.getElem?_eq_none (by omega), List.getElem?_eq_none (by simp; have := hl hend hh; omega)]

/-- **C87.** In every execution, a batch with blocks of one chunk that is not the last of the pass is right, also if the thread deletes chunks. -/
theorem c87_one_chunk (data : List TokChunk) (bs sz n : Nat) (items : List (Nat × Nat)) (hb : 0 < bs) (hn : 0 < n) (hd : TokData data sz)
    (hne : ∀ c ∈ data, c.2.flatten ≠ []) (hbl : BlocksOf data bs items) (hcc : ChunkByChunk items) (as : List TokBatchAct) (b : TokBatcher)
    (h : tokBatchActs (tokPass data bs sz items) n as .init = some b) (i k : Nat) (hlast : i * n + n < items.length)
    (hk : ∀ p x, i * n ≤ p → p < i * n + n → items[p]? = some x → x.1 = k) (x : Option (List (List Bytes))) (hx : b.out[i]? = some x) :
    x = some (batchAt n i (askedBlocks data bs items)) := by
  rcases (c87_batches_partial data bs sz n items hb hn hd hne hbl hcc as b h).1 i x hx with h | ⟨_, h | ⟨p, q, k1, j1, k2, j2, q1, q2, q3, q4, q5, q6, q7⟩, _⟩
  · exact h
  · omega
  · exact absurd ((hk p _ q1 q2 q5).trans (hk q _ q3 q4 q6).symm) q7

/-- Two chunks of four tokens each. -/
def demoRemote : List TokChunk := [("a", [[[1, 0], [2, 0], [3, 0], [4, 0]]]), ("b", [[[5, 0], [6, 0], [7, 0], [8, 0]]])]

/-- Steps of the threads, without collating. -/
def threadSteps (l : List TokAct) : List TokBatchAct := l.map .act

/-- Chunk `k` is fetched and not loaded ahead. -/
def fetchOnly (k : Nat) : List TokAct := [.fetch k, .arrive, .preLoad false]

/-- **C87.** Batches of three blocks, two blocks in each chunk. The first batch ends with a block of chunk 1: chunk 0 is given up, the thread deletes it at once, as the cache is
full, and the batch is collated from memory that is not mapped any more. -/
theorem c87_spanning_crash :
    (tokBatchActs (tokPass demoRemote 2 2 [(0, 0), (0, 1), (1, 0), (1, 1)]) 3
      (threadSteps (fetchOnly 0 ++ readerLines 18 ++ fetchOnly 1 ++ readerLines 14 ++ [.delete 0] ++ threadLines 5) ++ [.collate]) .init).map
      (fun b => (b.s.rpc, b.out)) = some (.idle, [none]) := by rfl

/-- The same execution without the deletion: the batch is right. -/
theorem c87_spanning_right :
    (tokBatchActs (tokPass demoRemote 2 2 [(0, 0), (0, 1), (1, 0), (1, 1)]) 3
      (threadSteps (fetchOnly 0 ++ readerLines 18 ++ fetchOnly 1 ++ readerLines 14) ++ [.collate]) .init).map
      (fun b => (b.s.rpc, b.out)) = some (.idle, [some [[[1, 0], [2, 0]], [[3, 0], [4, 0]], [[5, 0], [6, 0]]]]) := by rfl

/-- **C87.** One chunk, one block to a batch. With its last block the reader gives the chunk up, and waits for the thread, which deletes the chunk before it ends: the last
batch is collated from memory that is not mapped any more. -/
theorem c87_last_crash :
    (tokBatchActs (tokPass demoRemote 2 2 [(0, 0), (0, 1)]) 1
      (threadSteps (fetchOnly 0 ++ readerLines 11) ++ [.collate] ++ threadSteps (readerLines 7 ++ [.delete 0] ++ threadLines 5 ++ readerLines 3) ++ [.collate]) .init).map
      (fun b => (b.s.rpc, b.out)) = some (.idle, [some [[[1, 0], [2, 0]]], none]) := by rfl

/-- **C87.** A worker that reads a single block, with nothing deleted: `close` at the end of the pass unmaps the chunk before the batch is collated. In a local folder, `close` is
not called at the end of a pass. -/
theorem c87_single_block_crash :
    (tokBatchActs (tokPass demoRemote 2 2 [(1, 0)]) 1 (threadSteps (fetchOnly 1 ++ readerLines 19) ++ [.collate]) .init).map
      (fun b => (b.s.rpc, b.s.deleted, b.out)) = some (.idle, [], [none]) := by rfl

/-- The hypotheses of C87 are met. -/
example : TokData demoRemote 2 ∧ (∀ c ∈ demoRemote, c.2.flatten ≠ []) ∧ BlocksOf demoRemote 2 [(0, 0), (0, 1), (1, 0), (1, 1)] ∧
    TwoEach [(0, 0), (0, 1), (1, 0), (1, 1)] ∧ ChunkByChunk [(0, 0), (0, 1), (1, 0), (1, 1)] := by
  refine ⟨⟨by decide, by decide, by decide⟩, by decide, ?_, by unfold TwoEach; decide, ?_⟩
  · intro x hx
    simp only [List.mem_cons, List.not_mem_nil, or_false] at hx
    rcases hx with rfl | rfl | rfl | rfl
    · exact ⟨_, rfl, by decide⟩
    · exact ⟨_, rfl, by decide⟩
    · exact ⟨_, rfl, by decide⟩
    · exact ⟨_, rfl, by decide⟩
  · intro i g j k l h1 h2 hne i' k' l' hi h3
    match i, i' with
    | 0, _ => simp at h1 h2; omega
    | 1, 2 => simp at h1 h3; omega
    | 1, 3 => simp at h1 h3; omega
    | 1, 0 | 1, 1 => omega
    | 1, _ + 4 => simp at h3
    | 2, _ => simp at h1 h2; omega
    | _ + 3, _ => simp at h2

end LitData.Props
