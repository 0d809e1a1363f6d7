import Verif.Model.Broadcast
import Verif.Lemmas.Serializers

/-! C72: all machines of a run use the same directories, those that one of them was given. -/

namespace LitData.Props

open LitData

/-! The pickle of a directory. -/

theorem hexValue_digit (n : Nat) (h : n < 16) : hexValue (hexDigit n) = some n := by
  have : ∀ n, n < 16 → hexValue (hexDigit n) = some n := by decide
  exact this n h

theorem hexNumber_digits (k n acc : Nat) : hexNumber acc (hexDigits k n) = some (acc * 16 ^ k + n % 16 ^ k) := by
  induction k generalizing acc with
  | zero => simp [hexDigits, hexNumber, Nat.mod_one]
  | succ k ih =>
    rw [hexDigits, hexNumber, hexValue_digit _ (Nat.mod_lt _ (by decide))]
    show hexNumber _ _ = _
    rw [ih]
    congr 1
    rw [Nat.pow_succ, Nat.mod_mul, Nat.add_mul, Nat.mul_assoc, Nat.mul_comm 16 (16 ^ k), Nat.mul_comm (n / 16 ^ k % 16)]
    omega

theorem charOf_toNat (c : Char) : charOf c.toNat = some c := by
  unfold charOf
  rw [if_pos (show c.toNat.isValidChar from c.valid), Char.ofNat_toNat]

theorem hexDigits_length (k n : Nat) : (hexDigits k n).length = k := by
  induction k with
  | zero => rfl
  | succ k ih => simp [hexDigits, ih]

theorem char_lt (c : Char) : c.toNat < 1114112 := by
  have h := c.valid
  rcases h with h | h
  · exact Nat.lt_trans h (by decide)
  · exact h.2

theorem unescape_append (c : Char) (l : Bytes) : unescapeText (escapeChar c ++ l) = (unescapeText l).map fun r => c :: r := by
  have hc := char_lt c
  unfold escapeChar
  dsimp only
  split
  · have hn := hexNumber_digits 8 c.toNat 0
    have hl := hexDigits_length 8 c.toNat
    match hd : hexDigits 8 c.toNat, hl with
    | [a1, a2, a3, a4, a5, a6, a7, a8], _ =>
      rw [hd] at hn
      have e : 0 * 16 ^ 8 + c.toNat % 16 ^ 8 = c.toNat := by
        have : (16 : Nat) ^ 8 = 4294967296 := by decide
        omega
      rw [e] at hn
      simp only [List.cons_append, List.nil_append, unescapeText, hn, Option.bind_eq_bind, Option.bind_some, charOf_toNat]
      cases unescapeText l <;> rfl
  · split
    · have hn := hexNumber_digits 4 c.toNat 0
      have hl := hexDigits_length 4 c.toNat
      match hd : hexDigits 4 c.toNat, hl with
      | [a1, a2, a3, a4], _ =>
        rw [hd] at hn
        have e : 0 * 16 ^ 4 + c.toNat % 16 ^ 4 = c.toNat := by
          have : (16 : Nat) ^ 4 = 65536 := by decide
          omega
        rw [e] at hn
        simp only [List.cons_append, List.nil_append, unescapeText, hn, Option.bind_eq_bind, Option.bind_some, charOf_toNat]
        cases unescapeText l <;> rfl
    · rename_i h1 h2
      have hb : (UInt8.ofNat c.toNat).toNat = c.toNat := by
        rw [UInt8.toNat_ofNat']
        omega
      have hne : UInt8.ofNat c.toNat ≠ 92 := by
        intro h
        have := congrArg UInt8.toNat h
        rw [hb] at this
        have h92 : (92 : UInt8).toNat = 92 := rfl
        omega
      rw [List.singleton_append]
      have hdef : ∀ b : UInt8, b ≠ 92 → unescapeText (b :: l) = (unescapeText l).bind fun r => some (Char.ofNat b.toNat :: r) := by
        intro b hb'
        rw [unescapeText]
        · rfl
        · intro a b c d e f g h l' h1; exact absurd h1 hb'
        · intro a b c d l' h1; exact absurd h1 hb'
      rw [hdef _ hne, hb, Char.ofNat_toNat]
      cases unescapeText l <;> rfl

theorem unescape_escape (s : PathStr) : unescapeText (s.flatMap escapeChar) = some s := by
  induction s with
  | nil => rfl
  | cons c s ih => rw [List.flatMap_cons, unescape_append, ih]; rfl

theorem hexDigit_ne (n : Nat) (h : n < 16) : hexDigit n ≠ 10 := by
  have : ∀ n, n < 16 → hexDigit n ≠ 10 := by decide
  exact this n h

theorem hexDigits_ne (k n : Nat) : ∀ b ∈ hexDigits k n, b ≠ 10 := by
  induction k with
  | zero => intro b hb; cases hb
  | succ k ih =>
    intro b hb
    rcases List.mem_cons.1 hb with rfl | hb
    · exact hexDigit_ne _ (Nat.mod_lt _ (by decide))
    · exact ih b hb

theorem escape_no_newline (c : Char) : ∀ b ∈ escapeChar c, b ≠ 10 := by
  unfold escapeChar
  dsimp only
  intro b hb
  split at hb
  · rcases List.mem_cons.1 hb with rfl | hb
    · decide
    · rcases List.mem_cons.1 hb with rfl | hb
      · decide
      · exact hexDigits_ne _ _ b hb
  · split at hb
    · rcases List.mem_cons.1 hb with rfl | hb
      · decide
      · rcases List.mem_cons.1 hb with rfl | hb
        · decide
        · exact hexDigits_ne _ _ b hb
    · rcases List.mem_singleton.1 hb with rfl
      intro h
      have := congrArg UInt8.toNat h
      rw [UInt8.toNat_ofNat'] at this
      have h10 : (10 : UInt8).toNat = 10 := rfl
      omega

theorem takeLine_append (a l : Bytes) (h : ∀ b ∈ a, b ≠ 10) : takeLine (a ++ 10 :: l) = some (a, l) := by
  induction a with
  | nil => rfl
  | cons b a ih =>
    rw [List.cons_append, takeLine, if_neg (h b (List.mem_cons_self ..)), ih fun x hx => h x (List.mem_cons_of_mem _ hx)]
    rfl

theorem escapes_no_newline (s : PathStr) : ∀ b ∈ s.flatMap escapeChar, b ≠ 10 := by
  intro b hb
  obtain ⟨c, _, h⟩ := List.mem_flatMap.1 hb
  exact escape_no_newline c b h

theorem memo_ne (m : Nat) (h : m < 10) : UInt8.ofNat (48 + m) ≠ 10 := by
  have : ∀ m, m < 10 → UInt8.ofNat (48 + m) ≠ 10 := by decide
  exact this m h

theorem unpickleField_append (m : Nat) (hm : m < 10) (f : Option PathStr) (l : Bytes) : unpickleField (pickleField m f ++ l) = some (f, l) := by
  cases f with
  | none => rfl
  | some s =>
    have e : pickleField m (some s) ++ l = 86 :: (s.flatMap escapeChar ++ 10 :: ([112, UInt8.ofNat (48 + m)] ++ 10 :: l)) := by
      have h1 : asciiBytes "V" = [86] := by decide
      have h2 : asciiBytes "\np" = [10, 112] := by decide
      have h3 : asciiBytes "\n" = [10] := by decide
      simp [pickleField, h1, h2, h3]
    rw [e, unpickleField, takeLine_append _ _ (escapes_no_newline s)]
    simp only [Option.bind_eq_bind, Option.bind_some]
    rw [takeLine_append _ _ (by
      intro b hb
      rcases List.mem_cons.1 hb with rfl | hb
      · decide
      · rcases List.mem_singleton.1 hb with rfl
        exact memo_ne m hm)]
    simp only [Option.bind_some, unescape_escape]
    rfl

theorem unpickle_pickle (d : UserDir) : unpickleDir (pickleDir d) = some d := by
  obtain ⟨path, url⟩ := d
  have hm : (if path.isSome then 8 else 7) < 9 := by split <;> decide
  have h1 : asciiBytes "sVurl\np" = asciiBytes "sVurl\n" ++ [112] := by decide
  have h3 : asciiBytes "\n" = [10] := by decide
  have h6 : (asciiBytes "sVurl\n").length = 6 := by decide
  have e : pickleDir ⟨path, url⟩ = pickleHead ++ (pickleField 7 path ++ (asciiBytes "sVurl\n" ++ ([112, UInt8.ofNat (48 + (if path.isSome then 8 else 7))] ++
      10 :: (pickleField ((if path.isSome then 8 else 7) + 1) url ++ asciiBytes "sb.")))) := by
    simp [pickleDir, h1, h3]
  rw [e]
  generalize (if path.isSome then 8 else 7) = m at hm
  unfold unpickleDir
  rw [if_pos (List.isPrefixOf_iff_prefix.2 ⟨_, rfl⟩), List.drop_left, unpickleField_append 7 (by decide)]
  simp only [Option.bind_eq_bind, Option.bind_some]
  rw [if_pos (List.isPrefixOf_iff_prefix.2 ⟨_, rfl⟩), ← h6, List.drop_left, takeLine_append _ _ (by
      intro b hb
      rcases List.mem_cons.1 hb with rfl | hb
      · decide
      · rcases List.mem_singleton.1 hb with rfl
        exact memo_ne m (by omega))]
  simp only [Option.bind_some]
  rw [unpickleField_append (m + 1) (by omega)]
  rfl

theorem unUtf8_ok {b : Bytes} {s : String} (h : unUtf8 b = .ok s) : utf8 s = b := by
  unfold unUtf8 at h
  split at h
  · rename_i s' hs
    injection h with h
    subst h
    unfold String.fromUTF8? at hs
    split at hs
    · rename_i hv
      injection hs with hs
      subst hs
      rfl
    · cases hs
  · cases h

/-- What is sent for a directory is received as the same directory. -/
theorem c72_value (d : UserDir) (t : String) (h : payload d = .ok t) : unpayload t = .ok d := by
  unfold unpayload
  rw [unUtf8_ok h, unpickle_pickle]

theorem utf8_ofList (l : List Char) : utf8 (String.ofList l) = l.flatMap String.utf8EncodeChar := by
  unfold utf8
  show (String.ofList l).toByteArray.data.toList = _
  rw [← String.utf8Encode_toList, String.toList_ofList]
  simp [List.utf8Encode]

theorem encode_ascii (b : UInt8) (h : b.toNat < 128) : String.utf8EncodeChar (Char.ofNat b.toNat) = [b] := by
  have hv : (Char.ofNat b.toNat).val.toNat = b.toNat := by
    have : b.toNat.isValidChar := .inl (by omega)
    simp [Char.ofNat, this, Char.ofNatAux]
  unfold String.utf8EncodeChar
  simp only [hv]
  rw [if_pos (by omega), UInt8.ofNat_toNat]

theorem unUtf8_ascii (b : Bytes) (h : ∀ x ∈ b, x.toNat < 128) : ∃ t, unUtf8 b = .ok t := by
  have e : utf8 (String.ofList (b.map fun x => Char.ofNat x.toNat)) = b := by
    rw [utf8_ofList]
    induction b with
    | nil => rfl
    | cons x b ih =>
      rw [List.map_cons, List.flatMap_cons, encode_ascii x (h x (List.mem_cons_self ..)), ih fun y hy => h y (List.mem_cons_of_mem _ hy)]
      rfl
  exact ⟨_, by rw [← e]; exact unUtf8_utf8 _⟩

/-- The bytes that are not ASCII. -/
def highBytes (b : Bytes) : Nat := b.countP fun x => decide (128 ≤ x.toNat)

theorem highBytes_append (a b : Bytes) : highBytes (a ++ b) = highBytes a + highBytes b := List.countP_append ..

theorem encodeChar_high (c : Char) : highBytes (String.utf8EncodeChar c) ≠ 1 := by
  have h80 : ∀ n k, 128 ≤ k → k + n < 256 → 128 ≤ (UInt8.ofNat (n + k)).toNat := by
    intro n k h1 h2
    rw [UInt8.toNat_ofNat']
    omega
  unfold String.utf8EncodeChar highBytes
  dsimp only
  split
  · rename_i h
    have : ¬ 128 ≤ (UInt8.ofNat c.val.toNat).toNat := by
      rw [UInt8.toNat_ofNat']
      omega
    rw [List.countP_cons, List.countP_nil, decide_eq_false this]
    decide
  · have hmod : ∀ n : Nat, 128 ≤ (UInt8.ofNat (n % 64 + 128)).toNat := fun n => h80 _ _ (by omega) (by omega)
    split
    · have := h80 (c.val.toNat / 64 % 32) 192 (by omega) (by omega)
      simp only [List.countP_cons, List.countP_nil, this, hmod, decide_true, if_true]
      decide
    · split
      · have := h80 (c.val.toNat / 4096 % 16) 224 (by omega) (by omega)
        simp only [List.countP_cons, List.countP_nil, this, hmod, decide_true, if_true]
        decide
      · have := h80 (c.val.toNat / 262144 % 8) 240 (by omega) (by omega)
        simp only [List.countP_cons, List.countP_nil, this, hmod, decide_true, if_true]
        decide

theorem encode_high (l : List Char) : highBytes (l.flatMap String.utf8EncodeChar) ≠ 1 := by
  suffices h : ∀ n, n = highBytes (l.flatMap String.utf8EncodeChar) → n = 0 ∨ 2 ≤ n by
    have := h _ rfl
    omega
  induction l with
  | nil => intro n h; exact .inl h
  | cons c l ih =>
    intro n h
    rw [List.flatMap_cons, highBytes_append] at h
    have h1 := encodeChar_high c
    have h2 := ih _ rfl
    omega

theorem unUtf8_high (b : Bytes) (h : highBytes b = 1) : unUtf8 b = .error .valueError := by
  cases hu : unUtf8 b with
  | error e =>
    unfold unUtf8 at hu
    split at hu
    · cases hu
    · injection hu with hu; rw [hu]
  | ok t =>
    have := unUtf8_ok hu
    rw [← String.ofList_toList (s := t), utf8_ofList] at this
    rw [← this] at h
    exact absurd h (encode_high _)

/-- The characters that a pickle holds as one byte that is not ASCII: U+0080 to U+00FF. -/
def latin (s : PathStr) : Nat := s.countP fun c => decide (128 ≤ c.toNat ∧ c.toNat < 256)

theorem hexDigits_low (k n : Nat) : highBytes (hexDigits k n) = 0 := by
  have hd : ∀ n, n < 16 → ¬ 128 ≤ (hexDigit n).toNat := by decide
  induction k with
  | zero => rfl
  | succ k ih =>
    rw [hexDigits]
    have := hd (n / 16 ^ k % 16) (Nat.mod_lt _ (by decide))
    simpa [highBytes, List.countP_cons, this] using ih

theorem escapeChar_high (c : Char) : highBytes (escapeChar c) = if 128 ≤ c.toNat ∧ c.toNat < 256 then 1 else 0 := by
  unfold escapeChar
  dsimp only
  split
  · rw [if_neg (by omega)]
    have := hexDigits_low 8 c.toNat
    simpa [highBytes, List.countP_cons] using this
  · split
    · rw [if_neg (by omega)]
      have := hexDigits_low 4 c.toNat
      simpa [highBytes, List.countP_cons] using this
    · have hb : (UInt8.ofNat c.toNat).toNat = c.toNat := by
        rw [UInt8.toNat_ofNat']
        omega
      simp only [highBytes, List.countP_cons, List.countP_nil, hb, Nat.zero_add, decide_eq_true_eq]
      split <;> split <;> first | rfl | omega

theorem escapes_high (s : PathStr) : highBytes (s.flatMap escapeChar) = latin s := by
  induction s with
  | nil => rfl
  | cons c s ih =>
    rw [List.flatMap_cons, highBytes_append, ih, escapeChar_high, latin, latin, List.countP_cons]
    simp only [decide_eq_true_eq]
    omega

theorem field_high (m : Nat) (hm : m < 10) (f : Option PathStr) : highBytes (pickleField m f) = latin (f.getD []) := by
  cases f with
  | none => rfl
  | some s =>
    have h : ∀ m, m < 10 → highBytes [UInt8.ofNat (48 + m)] = 0 := by decide
    have h1 : highBytes (asciiBytes "V") = 0 := by decide
    have h2 : highBytes (asciiBytes "\np") = 0 := by decide
    have h3 : highBytes (asciiBytes "\n") = 0 := by decide
    simp only [pickleField, highBytes_append, escapes_high, h m hm, h1, h2, h3, Option.getD_some]
    omega

theorem pickle_high (d : UserDir) : highBytes (pickleDir d) = latin (d.path.getD []) + latin (d.url.getD []) := by
  obtain ⟨path, url⟩ := d
  have hm : (if path.isSome then 8 else 7) < 9 := by split <;> decide
  have h : ∀ m, m < 10 → highBytes [UInt8.ofNat (48 + m)] = 0 := by decide
  have h1 : highBytes (asciiBytes "sVurl\np") = 0 := by decide
  have h3 : highBytes (asciiBytes "\n") = 0 := by decide
  have h4 : highBytes (asciiBytes "sb.") = 0 := by decide
  have h5 : highBytes pickleHead = 0 := by decide
  simp only [pickleDir, highBytes_append, field_high 7 (by decide), field_high _ (by omega : (if path.isSome then 8 else 7) + 1 < 10), h _ (by omega : (if path.isSome then 8 else 7) < 10), h1, h3, h4, h5]
  omega

/-- A directory can be sent if its path and its URL have no character from U+0080 to U+00FF. -/
theorem c72_sendable (d : UserDir) (hp : ∀ c ∈ d.path.getD [], ¬ (128 ≤ c.toNat ∧ c.toNat < 256)) (hu : ∀ c ∈ d.url.getD [], ¬ (128 ≤ c.toNat ∧ c.toNat < 256)) :
    ∃ t, payload d = .ok t := by
  have h0 : ∀ s : PathStr, (∀ c ∈ s, ¬ (128 ≤ c.toNat ∧ c.toNat < 256)) → latin s = 0 := by
    intro s hs
    rw [latin, List.countP_eq_zero]
    intro c hc
    simpa using hs c hc
  refine unUtf8_ascii _ fun x hx => ?_
  have h := pickle_high d
  rw [h0 _ hp, h0 _ hu, highBytes, Nat.add_zero, List.countP_eq_zero] at h
  have := h x hx
  simp only [decide_eq_true_eq] at this
  omega

/-- A directory cannot be sent if its path and its URL have just one such character, like `ä` or `é`: the call raises before anything is sent. -/
theorem c72_unsendable (d : UserDir) (h : latin (d.path.getD []) + latin (d.url.getD []) = 1) : payload d = .error .valueError :=
  unUtf8_high _ (by rw [pickle_high]; exact h)

/-! The calls of all machines. -/

theorem set_value (s : Service) (k : PathStr) (t : String) : (s.set k t).1.lookup k = some (s.set k t).2 := by
  unfold Service.set
  cases h : s.lookup k with
  | some t' => exact h
  | none => simp [List.lookup]

theorem set_keeps (s : Service) (k k' : PathStr) (t t' : String) (h : s.lookup k' = some t') : (s.set k t).1.lookup k' = some t' := by
  unfold Service.set
  cases hk : s.lookup k with
  | some t'' => exact h
  | none =>
    simp only [List.lookup]
    by_cases e : k' = k
    · subst e; rw [hk] at h; cases h
    · have : (k' == k) = false := by simpa using e
      simp [this, h]

theorem set_from (s : Service) (k k' : PathStr) (t t' : String) (h : (s.set k t).1.lookup k' = some t') : s.lookup k' = some t' ∨ (k' = k ∧ t' = t) := by
  unfold Service.set at h
  cases hk : s.lookup k with
  | some t'' => rw [hk] at h; exact .inl h
  | none =>
    rw [hk] at h
    simp only [List.lookup] at h
    by_cases e : k' = k
    · subst e
      simp at h
      exact .inr ⟨rfl, h.symm⟩
    · have : (k' == k) = false := by simpa using e
      simp [this] at h
      exact .inl h

attribute [local irreducible] payload unpayload

section
variable {ι : Type} [DecidableEq ι] {key : ι → PathStr} {dir : ι → UserDir}

/-- The steps of all machines, none or more. -/
inductive CastSteps (key : ι → PathStr) (dir : ι → UserDir) : CastState ι → CastState ι → Prop
  | refl (s : CastState ι) : CastSteps key dir s s
  | step {s s' s'' : CastState ι} : CastSteps key dir s s' → CastStep key dir s' s'' → CastSteps key dir s s''

/-- What the service holds for a key stays. -/
theorem castStep_keeps {s s' : CastState ι} (h : CastStep key dir s s') (k : PathStr) (t : String) (hk : s.service.lookup k = some t) : s'.service.lookup k = some t := by
  cases h with
  | unsendable => exact hk
  | noConnection => exact hk
  | lostReply => exact set_keeps _ _ _ _ _ hk
  | answer => exact set_keeps _ _ _ _ _ hk
  | noValue => exact hk
  | error => exact hk

/-- What holds in every state: the values of the service were sent by calls with the key, and a call that ended has the value of its key. -/
structure CastInv (key : ι → PathStr) (dir : ι → UserDir) (s : CastState ι) : Prop where
  sent : ∀ k t, s.service.lookup k = some t → ∃ i, key i = k ∧ payload (dir i) = .ok t
  done : ∀ i d, s.calls i = .done d → ∃ t, s.service.lookup (key i) = some t ∧ payload d = .ok t

theorem payload_inj {d d' : UserDir} {t : String} (h : payload d = .ok t) (h' : payload d' = .ok t) : d = d' := by
  have h1 := c72_value d t h
  rw [c72_value d' t h'] at h1
  injection h1 with h1
  exact h1.symm

theorem castInv_put {s : CastState ι} (h : CastInv key dir s) (i : ι) (c : CastSt) (hc : ∀ d, c ≠ .done d) (srv : Service)
    (hkeep : ∀ k t, s.service.lookup k = some t → srv.lookup k = some t) (hsent : ∀ k t, srv.lookup k = some t → ∃ i, key i = k ∧ payload (dir i) = .ok t) :
    CastInv key dir (s.put i srv c) := by
  refine ⟨hsent, fun j d hj => ?_⟩
  simp only [CastState.put] at hj
  split at hj
  · exact absurd hj (hc d)
  · obtain ⟨t, h1, h2⟩ := h.done j d hj
    exact ⟨t, hkeep _ _ h1, h2⟩

omit [DecidableEq ι] in
theorem set_sent {s : CastState ι} (h : CastInv key dir s) (i : ι) (t : String) (ht : payload (dir i) = .ok t) :
    ∀ k t', (s.service.set (key i) t).1.lookup k = some t' → ∃ i, key i = k ∧ payload (dir i) = .ok t' := by
  intro k t' hk
  rcases set_from _ _ _ _ _ hk with h1 | ⟨rfl, rfl⟩
  · exact h.sent k t' h1
  · exact ⟨i, rfl, ht⟩

theorem castInv_step {s s' : CastState ι} (h : CastInv key dir s) (hs : CastStep key dir s s') : CastInv key dir s' := by
  cases hs with
  | unsendable i e => exact castInv_put h i _ (fun _ => by simp) _ (fun _ _ => id) h.sent
  | noConnection i t => exact castInv_put h i _ (fun _ => by simp) _ (fun _ _ => id) h.sent
  | lostReply i t _ ht => exact castInv_put h i _ (fun _ => by simp) _ (fun _ _ => set_keeps _ _ _ _ _) (set_sent h i t ht)
  | noValue i t => exact castInv_put h i _ (fun _ => by simp) _ (fun _ _ => id) h.sent
  | error i t e => exact castInv_put h i _ (fun _ => by simp) _ (fun _ _ => id) h.sent
  | answer i t _ ht =>
    obtain ⟨j, hj, hd⟩ := set_sent h i t ht (key i) _ (set_value s.service (key i) t)
    rw [c72_value _ _ hd]
    refine ⟨set_sent h i t ht, fun i' d hi' => ?_⟩
    simp only [CastState.put] at hi'
    split at hi'
    · rename_i e
      subst e
      injection hi' with hi'
      subst hi'
      exact ⟨_, set_value _ _ _, hd⟩
    · obtain ⟨t', h1, h2⟩ := h.done i' d hi'
      exact ⟨t', set_keeps _ _ _ _ _ h1, h2⟩

theorem castInv_reach {s : CastState ι} (h : CastReach key dir s) : CastInv key dir s := by
  induction h with
  | start => exact ⟨(fun _ _ h => by cases h), (fun _ _ h => by cases h)⟩
  | step _ hs ih => exact castInv_step ih hs

/-- **C72, agreement.** Whatever connections fail and however often a machine asks again, two calls for the same key that end have the same directory; it is one that was given to a call for this key. -/
theorem c72_agree {s : CastState ι} (h : CastReach key dir s) (i j : ι) (hk : key i = key j) (d d' : UserDir) (hi : s.calls i = .done d) (hj : s.calls j = .done d') :
    d = d' ∧ ∃ k, key k = key i ∧ dir k = d := by
  obtain ⟨t, h1, h2⟩ := (castInv_reach h).done i d hi
  obtain ⟨t', h1', h2'⟩ := (castInv_reach h).done j d' hj
  rw [← hk, h1] at h1'
  injection h1' with h1'
  subst h1'
  refine ⟨payload_inj h2 h2', ?_⟩
  obtain ⟨k, hk', hd⟩ := (castInv_reach h).sent _ _ h1
  exact ⟨k, hk', payload_inj hd h2⟩

theorem castSteps_keep {s s' : CastState ι} (h : CastSteps key dir s s') (k : PathStr) (t : String) (hk : s.service.lookup k = some t) : s'.service.lookup k = some t := by
  induction h with
  | refl => exact hk
  | step _ hs ih => exact castStep_keeps hs k t ih

theorem castSteps_reach {s s' : CastState ι} (h : CastReach key dir s) (hs : CastSteps key dir s s') : CastReach key dir s' := by
  induction hs with
  | refl => exact h
  | step _ hs ih => exact .step ih hs

/-- Once a call has ended, every call for the same key that ends later has its directory. -/
theorem c72_settled {s s' : CastState ι} (h : CastReach key dir s) (i : ι) (d : UserDir) (hi : s.calls i = .done d) (hs : CastSteps key dir s s') (j : ι) (hk : key j = key i) (d' : UserDir)
    (hj : s'.calls j = .done d') : d' = d := by
  obtain ⟨t, h1, h2⟩ := (castInv_reach h).done i d hi
  obtain ⟨t', h1', h2'⟩ := (castInv_reach (castSteps_reach h hs)).done j d' hj
  rw [hk, castSteps_keep hs _ _ h1] at h1'
  injection h1' with h1'
  subst h1'
  exact payload_inj h2' h2

/-- A call of which the value can be sent ends with one answer of the service. -/
theorem c72_answered {s : CastState ι} (h : CastReach key dir s) (i : ι) (hi : s.calls i = .asking ∨ s.calls i = .askingPrivate) (t : String) (ht : payload (dir i) = .ok t) :
    ∃ s' d, CastStep key dir s s' ∧ s'.calls i = .done d := by
  obtain ⟨j, hj, hd⟩ := set_sent (castInv_reach h) i t ht (key i) _ (set_value s.service (key i) t)
  refine ⟨_, dir j, .answer s i t hi ht, ?_⟩
  rw [c72_value _ _ hd]
  simp [CastState.put]

/-- A call that failed or ended stays so, and one whose value cannot be sent never ends with a directory. -/
theorem c72_never_sent {s : CastState ι} (h : CastReach key dir s) (i : ι) (e : Err) (he : payload (dir i) = .error e) : s.calls i = .asking ∨ s.calls i = .failed e := by
  induction h with
  | start => exact .inl rfl
  | @step s s' _ hs ih =>
    cases hs with
    | unsendable j e' _ he' =>
      simp only [CastState.put]
      split
      · rename_i e1; subst e1; rw [he] at he'; injection he' with he'; subst he'; exact .inr rfl
      · exact ih
    | noConnection j t _ ht | lostReply j t _ ht | answer j t _ ht | noValue j t _ ht | error j t e' _ ht =>
      simp only [CastState.put]
      split
      · rename_i e1; subst e1; rw [he] at ht; cases ht
      · exact ih
end

/-! The calls of `map` and `optimize`. -/

theorem castKey_inj {i j : CastId} (h : i.key = j.key) : i.output = j.output := by
  unfold CastId.key at h
  cases hi : i.output <;> cases hj : j.output <;> rw [hi, hj] at h
  · exact absurd h (by decide)
  · exact absurd h (by decide)

/-- The machines of a run agree on the input directory and on the output directory. -/
theorem c72_nodes_agree {dir : CastId → UserDir} {s : CastState CastId} (h : CastReach CastId.key dir s) (run n m : Nat) (output : Bool) (d d' : UserDir)
    (hn : s.calls ⟨run, n, output⟩ = .done d) (hm : s.calls ⟨run, m, output⟩ = .done d') : d = d' :=
  (c72_agree h ⟨run, n, output⟩ ⟨run, m, output⟩ rfl d d' hn hm).1

/-- In the only run of an application, the directory is one that a machine was given: as input directory for the input, as output directory for the output. -/
theorem c72_one_run {given : Nat → Bool → UserDir} {s : CastState (Nat × Bool)} (h : CastReach (fun i => CastId.key ⟨0, i.1, i.2⟩) (fun i => given i.1 i.2) s) (n : Nat) (output : Bool) (d : UserDir)
    (hn : s.calls (n, output) = .done d) : ∃ m, given m output = d := by
  obtain ⟨_, ⟨m, o⟩, hk, hd⟩ := c72_agree h (n, output) (n, output) rfl d d hn hn
  have ho : o = output := castKey_inj (i := ⟨0, m, o⟩) (j := ⟨0, n, output⟩) hk
  subst ho
  exact ⟨m, hd⟩

/-- **Where the code fails.** The keys do not depend on the run: once a run has its directory, all later runs of the application get the directory of that run, whatever they were given. -/
theorem c72_second_run {dir : CastId → UserDir} {s s' : CastState CastId} (h : CastReach CastId.key dir s) (run n : Nat) (output : Bool) (d : UserDir) (hn : s.calls ⟨run, n, output⟩ = .done d)
    (hs : CastSteps CastId.key dir s s') (run' m : Nat) (d' : UserDir) (hm : s'.calls ⟨run', m, output⟩ = .done d') : d' = d :=
  c72_settled h ⟨run, n, output⟩ d hn hs ⟨run', m, output⟩ rfl d' hm

/-- And this happens: for any two directories that can be sent there is an execution in which the second run gets the directory of the first. -/
theorem c72_second_run_happens (d d' : UserDir) (t t' : String) (ht : payload d = .ok t) (ht' : payload d' = .ok t') (output : Bool) :
    ∃ s, CastReach CastId.key (fun i => if i.run = 0 then d else d') s ∧ s.calls ⟨1, 0, output⟩ = .done d := by
  obtain ⟨s1, d1, hs1, hd1⟩ := c72_answered (.start : CastReach CastId.key (fun i => if i.run = 0 then d else d') _) ⟨0, 0, output⟩ (.inl rfl) t (by simpa using ht)
  have hr1 := CastReach.step .start hs1
  have h1 : s1.calls ⟨1, 0, output⟩ = .asking := by
    cases hs1 with
    | unsendable i e _ _ | noConnection i t _ _ | lostReply i t _ _ | answer i t _ _ | noValue i t _ _ | error i t e _ _ =>
      simp only [CastState.put] at hd1 ⊢
      split at hd1
      · rename_i e1
        subst e1
        rw [if_neg (by simp)]
      · cases hd1
  obtain ⟨s2, d2, hs2, hd2⟩ := c72_answered hr1 ⟨1, 0, output⟩ (.inl h1) t' (by simpa using ht')
  refine ⟨s2, .step hr1 hs2, ?_⟩
  have e2 := c72_settled hr1 ⟨0, 0, output⟩ d1 hd1 (.step (.refl _) hs2) ⟨1, 0, output⟩ rfl d2 hd2
  obtain ⟨t1, h3, h4⟩ := (castInv_reach hr1).done _ _ hd1
  have e1 : d1 = d := by
    cases hs1 with
    | unsendable i e _ _ | noConnection i t _ _ | lostReply i t _ _ | noValue i t _ _ | error i t e _ _ =>
      simp only [CastState.put] at hd1
      split at hd1 <;> cases hd1
    | answer i t0 _ ht0 =>
      simp only [CastState.put] at hd1 h3
      split at hd1
      · rename_i e1
        subst e1
        simp only [if_true] at ht0
        have hset : Service.set ([] : Service) (CastId.key ⟨0, 0, output⟩) t0 = ([(CastId.key ⟨0, 0, output⟩, t0)], t0) := rfl
        rw [hset] at h3
        simp at h3
        subst h3
        exact payload_inj h4 ht0
      · cases hd1
  rw [hd2, e2, e1]

/-- Without an application each machine keeps what it was given. -/
theorem c72_local (d : UserDir) : castLocal d = d := rfl

/-! Concrete cases. -/

example : ∃ t, payload ⟨some "/data/in\\x".toList, some "s3://bucket/日本".toList⟩ = .ok t :=
  c72_sendable _ (by decide) (by decide)

example : payload ⟨some "/data/Ärger".toList, none⟩ = .error .valueError := c72_unsendable _ (by decide)

example : ∃ s, CastReach CastId.key (fun i => if i.run = 0 then ⟨some "/a".toList, none⟩ else ⟨some "/b".toList, none⟩) s ∧ s.calls ⟨1, 0, true⟩ = .done ⟨some "/a".toList, none⟩ := by
  obtain ⟨t, ht⟩ := c72_sendable ⟨some "/a".toList, none⟩ (by decide) (by decide)
  obtain ⟨t', ht'⟩ := c72_sendable ⟨some "/b".toList, none⟩ (by decide) (by decide)
  exact c72_second_run_happens _ _ t t' ht ht' true

example : ∃ s d, CastReach (fun i : Nat × Bool => CastId.key ⟨0, i.1, i.2⟩) (fun i => ⟨some ['/', Char.ofNat (97 + i.1)], none⟩) s ∧ s.calls (1, true) = .done d := by
  obtain ⟨t, ht⟩ := c72_sendable ⟨some "/b".toList, none⟩ (by decide) (by decide)
  obtain ⟨s, d, hs, hd⟩ := c72_answered (.start : CastReach (fun i : Nat × Bool => CastId.key ⟨0, i.1, i.2⟩) (fun i => ⟨some ['/', Char.ofNat (97 + i.1)], none⟩) _) (1, true) (.inl rfl) t ht
  exact ⟨s, d, .step .start hs, hd⟩

end LitData.Props
