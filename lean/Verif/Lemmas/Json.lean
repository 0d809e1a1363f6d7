import Verif.Model.Json

/-! `loads` inverts `dumps`. -/

namespace LitData

mutual
/-- Every object has as many keys as values. -/
def Json.WF : Json → Prop
  | .arr l => WFList l
  | .obj ks vs => ks.length = vs.length ∧ WFList vs
  | _ => True

def WFList : List Json → Prop
  | [] => True
  | j :: l => j.WF ∧ WFList l
end

theorem loadStr_escape (s rest : List Char) : loadStr (escape s ++ '"' :: rest) = some (s, rest) := by
  induction s with
  | nil => simp [escape, loadStr]
  | cons c s ih =>
    by_cases h1 : c = '"'
    · subst h1; simp [escape, loadStr, ih]
    · by_cases h2 : c = '\\'
      · subst h2; simp [escape, loadStr, ih]
      · rw [escape.eq_4 _ _ h1 h2, List.cons_append, loadStr.eq_3 _ _ h1 (by intro _ _ h; exact absurd h h2), ih]

theorem loadStr_dumpStr (s : String) (rest : List Char) :
    ∃ t, dumpStr s ++ rest = '"' :: t ∧ loadStr t = some (s.toList, rest) :=
  ⟨escape s.toList ++ '"' :: rest, by simp [dumpStr], loadStr_escape _ _⟩

/-- What may follow a number. -/
def Stop (rest : List Char) : Prop := ∀ c, rest.head? = some c → c.isDigit = false

theorem takeWhile_append_stop (a b : List Char) (ha : ∀ c ∈ a, c.isDigit = true) (hb : Stop b) :
    (a ++ b).takeWhile (·.isDigit) = a ∧ (a ++ b).dropWhile (·.isDigit) = b := by
  induction a with
  | nil =>
    cases b with
    | nil => exact ⟨rfl, rfl⟩
    | cons c b =>
      have := hb c rfl
      simp [this]
  | cons c a ih =>
    have h := ih (fun d hd => ha d (List.mem_cons_of_mem _ hd))
    simp only [List.cons_append, List.takeWhile_cons, List.dropWhile_cons, ha c (by simp), if_true, h.1, h.2, and_self]

theorem loadDigits_toDigits (n : Nat) (rest : List Char) (h : Stop rest) :
    loadDigits (Nat.toDigits 10 n ++ rest) = some (n, rest) := by
  unfold loadDigits
  obtain ⟨h1, h2⟩ := takeWhile_append_stop (Nat.toDigits 10 n) rest
    (fun c hc => Nat.isDigit_of_mem_toDigits (by omega) (by omega) hc) h
  rw [h1, h2, if_neg Nat.toDigits_ne_nil, Nat.ofDigitChars_ten_toDigits]

theorem dumpInt_head (i : Int) : ∃ c t, dumpInt i = c :: t ∧ (c = '-' ∨ c.isDigit = true) := by
  cases i with
  | ofNat n =>
    simp only [dumpInt]
    cases h : Nat.toDigits 10 n with
    | nil => exact absurd h Nat.toDigits_ne_nil
    | cons c t =>
      refine ⟨c, t, rfl, Or.inr ?_⟩
      exact Nat.isDigit_of_mem_toDigits (b := 10) (n := n) (by omega) (by omega) (by rw [h]; simp)
  | negSucc n => exact ⟨'-', _, rfl, Or.inl rfl⟩

theorem loadJson_digits (fuel : Nat) (n : Nat) (rest : List Char) (h : Stop rest) :
    loadJson (fuel + 1) (Nat.toDigits 10 n ++ rest) = some (.num n, rest) := by
  have hd := loadDigits_toDigits n rest h
  cases hl : Nat.toDigits 10 n with
  | nil => exact absurd hl Nat.toDigits_ne_nil
  | cons c t =>
    have hc : c.isDigit = true :=
      Nat.isDigit_of_mem_toDigits (b := 10) (n := n) (by omega) (by omega) (by rw [hl]; simp)
    rw [hl] at hd
    rw [loadJson.eq_def]
    simp only [List.cons_append] at hd ⊢
    split <;> first
      | (rename_i heq; simp only [List.cons.injEq] at heq; rw [heq.1] at hc; exact absurd hc (by decide))
      | (rw [hd]; rfl)

theorem dump_head (j : Json) : ∃ c t, j.dump = c :: t ∧ c ≠ ']' := by
  cases j with
  | null => exact ⟨'n', _, by simp only [Json.dump]; rfl, by decide⟩
  | bool b =>
    cases b
    · exact ⟨'f', _, by simp only [Json.dump]; rfl, by decide⟩
    · exact ⟨'t', _, by simp only [Json.dump]; rfl, by decide⟩
  | num i =>
    obtain ⟨c, t, h, h'⟩ := dumpInt_head i
    refine ⟨c, t, by simp only [Json.dump, h], ?_⟩
    rintro rfl
    rcases h' with h' | h'
    · exact absurd h' (by decide)
    · exact absurd h' (by decide)
  | str s => exact ⟨'"', _, by simp only [Json.dump, dumpStr, List.cons_append]; rfl, by decide⟩
  | arr l => cases l <;> exact ⟨'[', _, by simp only [Json.dump, dumpArr]; rfl, by decide⟩
  | obj ks vs =>
    cases ks with
    | nil => exact ⟨'{', _, by simp only [Json.dump, dumpObj]; rfl, by decide⟩
    | cons k ks =>
      cases vs with
      | nil => exact ⟨'{', _, by simp only [Json.dump, dumpObj]; rfl, by decide⟩
      | cons v vs => exact ⟨'{', _, by simp only [Json.dump, dumpObj]; rfl, by decide⟩

mutual
/-- Enough fuel to read a value back. -/
def Json.size : Json → Nat
  | .arr l => sizeList l
  | .obj _ vs => sizeList vs
  | _ => 1

def sizeList : List Json → Nat
  | [] => 1
  | j :: l => 1 + j.size + sizeList l
end

theorem sizeList_pos (l : List Json) : 1 ≤ sizeList l := by
  cases l <;> simp only [sizeList] <;> omega

theorem Json.size_pos (j : Json) : 1 ≤ j.size := by
  cases j <;> simp only [Json.size, Nat.le_refl]
  · exact sizeList_pos _
  · exact sizeList_pos _

theorem stop_tail (l : List Json) (rest : List Char) : Stop (dumpTail l ++ rest) := by
  cases l with
  | nil => intro c hc; simp only [dumpTail, List.cons_append, List.head?_cons, Option.some.injEq] at hc; rw [← hc]; decide
  | cons j l => intro c hc; simp only [dumpTail, List.cons_append, List.head?_cons, Option.some.injEq] at hc; rw [← hc]; decide

theorem stop_fields (ks : List String) (vs : List Json) (rest : List Char) : Stop (dumpFields ks vs ++ rest) := by
  have : ∃ c t, dumpFields ks vs = c :: t ∧ c.isDigit = false := by
    cases ks with
    | nil => exact ⟨'}', _, by simp only [dumpFields]; rfl, by decide⟩
    | cons k ks =>
      cases vs with
      | nil => exact ⟨'}', _, by simp only [dumpFields]; rfl, by decide⟩
      | cons v vs => exact ⟨',', _, by simp only [dumpFields]; rfl, by decide⟩
  obtain ⟨c, t, h, hc⟩ := this
  intro d hd
  rw [h] at hd
  simp only [List.cons_append, List.head?_cons, Option.some.injEq] at hd
  rw [← hd]; exact hc

mutual
theorem loadJson_dump (j : Json) (hj : j.WF) (fuel : Nat) (hf : j.size ≤ fuel) (rest : List Char) (hr : Stop rest) :
    loadJson fuel (j.dump ++ rest) = some (j, rest) := by
  cases fuel with
  | zero => have := Json.size_pos j; omega
  | succ fuel =>
    match j with
    | .null => simp only [Json.dump, List.cons_append, List.nil_append, loadJson]
    | .bool true => simp only [Json.dump, List.cons_append, List.nil_append, loadJson]
    | .bool false => simp only [Json.dump, List.cons_append, List.nil_append, loadJson]
    | .num (.ofNat n) =>
      simp only [Json.dump, dumpInt]
      exact loadJson_digits fuel n rest hr
    | .num (.negSucc n) =>
      simp only [Json.dump, dumpInt, List.cons_append, loadJson]
      rw [loadDigits_toDigits _ _ hr]
      simp only [Option.map_some, Option.some.injEq, Prod.mk.injEq, and_true, Json.num.injEq]
      omega
    | .str s =>
      obtain ⟨t, h1, h2⟩ := loadStr_dumpStr s rest
      simp only [Json.dump, h1, loadJson, h2, Option.map_some, String.ofList_toList]
    | .arr [] => simp only [Json.dump, dumpArr, List.cons_append, List.nil_append, loadJson]
    | .arr (x :: l) =>
      simp only [Json.size, sizeList] at hf
      simp only [Json.WF, WFList] at hj
      have h1 := loadJson_dump x hj.1 fuel (by omega) (dumpTail l ++ rest) (stop_tail l rest)
      have h2 := loadTail_dump l hj.2 fuel (by omega) rest
      simp only [Json.dump, dumpArr, List.cons_append, List.append_assoc]
      obtain ⟨c, t, h3, h4⟩ := dump_head x
      rw [h3, List.cons_append] at h1 ⊢
      rw [loadJson.eq_7 _ _ (by intro r h; exact h4 (List.cons.inj h).1)]
      rw [h1]
      simp only
      rw [h2]
    | .obj [] [] => simp only [Json.dump, dumpObj, List.cons_append, List.nil_append, loadJson]
    | .obj [] (v :: vs) => simp only [Json.WF, List.length_nil, List.length_cons] at hj; omega
    | .obj (k :: ks) [] => simp only [Json.WF, List.length_nil, List.length_cons] at hj; omega
    | .obj (k :: ks) (v :: vs) =>
      simp only [Json.size, sizeList] at hf
      simp only [Json.WF, WFList, List.length_cons] at hj
      have h1 := loadJson_dump v hj.2.1 fuel (by omega) (dumpFields ks vs ++ rest) (stop_fields ks vs rest)
      have h2 := loadFields_dump vs hj.2.2 ks (by omega) fuel (by omega) rest
      simp only [Json.dump, dumpObj, List.cons_append, List.append_assoc]
      obtain ⟨t, h3, h4⟩ := loadStr_dumpStr k (':' :: ' ' :: (v.dump ++ (dumpFields ks vs ++ rest)))
      rw [h3]
      simp only [loadJson, h4, h1, h2, String.ofList_toList]

theorem loadTail_dump (l : List Json) (hl : WFList l) (fuel : Nat) (hf : sizeList l ≤ fuel) (rest : List Char) :
    loadTail fuel (dumpTail l ++ rest) = some (l, rest) := by
  cases fuel with
  | zero => cases l <;> simp only [sizeList] at hf <;> omega
  | succ fuel =>
    match l with
    | [] => simp only [dumpTail, List.cons_append, List.nil_append, loadTail]
    | x :: l =>
      simp only [sizeList] at hf
      simp only [WFList] at hl
      have h1 := loadJson_dump x hl.1 fuel (by omega) (dumpTail l ++ rest) (stop_tail l rest)
      have h2 := loadTail_dump l hl.2 fuel (by omega) rest
      simp only [dumpTail, List.cons_append, List.append_assoc, loadTail, h1, h2]

theorem loadFields_dump (vs : List Json) (hv : WFList vs) (ks : List String) (hk : ks.length = vs.length) (fuel : Nat)
    (hf : sizeList vs ≤ fuel) (rest : List Char) :
    loadFields fuel (dumpFields ks vs ++ rest) = some ((ks, vs), rest) := by
  cases fuel with
  | zero => cases vs <;> simp only [sizeList] at hf <;> omega
  | succ fuel =>
    match ks, vs with
    | [], [] => simp only [dumpFields, List.cons_append, List.nil_append, loadFields]
    | [], v :: vs => simp at hk
    | k :: ks, [] => simp at hk
    | k :: ks, v :: vs =>
      simp only [sizeList] at hf
      simp only [WFList] at hv
      have h1 := loadJson_dump v hv.1 fuel (by omega) (dumpFields ks vs ++ rest) (stop_fields ks vs rest)
      have h2 := loadFields_dump vs hv.2 ks (by simpa using hk) fuel (by omega) rest
      obtain ⟨t, h3, h4⟩ := loadStr_dumpStr k (':' :: ' ' :: (v.dump ++ (dumpFields ks vs ++ rest)))
      simp only [dumpFields, List.cons_append, List.append_assoc]
      rw [h3]
      simp only [loadFields, h4, h1, h2, String.ofList_toList]
end

mutual
theorem size_le (j : Json) (hj : j.WF) : j.size ≤ j.dump.length := by
  match j with
  | .null => simp [Json.size, Json.dump]
  | .bool true => simp [Json.size, Json.dump]
  | .bool false => simp [Json.size, Json.dump]
  | .num i =>
    obtain ⟨c, t, h, _⟩ := dumpInt_head i
    simp [Json.size, Json.dump, h]
  | .str s => simp [Json.size, Json.dump, dumpStr]
  | .arr [] => simp [Json.size, sizeList, Json.dump, dumpArr]
  | .arr (x :: l) =>
    simp only [Json.WF, WFList] at hj
    have h1 := size_le x hj.1
    have h2 := sizeTail_le l hj.2
    simp only [Json.size, sizeList, Json.dump, dumpArr, List.length_cons, List.length_append]
    omega
  | .obj [] [] => simp [Json.size, sizeList, Json.dump, dumpObj]
  | .obj [] (v :: vs) => simp only [Json.WF, List.length_nil, List.length_cons] at hj; omega
  | .obj (k :: ks) [] => simp only [Json.WF, List.length_nil, List.length_cons] at hj; omega
  | .obj (k :: ks) (v :: vs) =>
    simp only [Json.WF, WFList, List.length_cons] at hj
    have h1 := size_le v hj.2.1
    have h2 := sizeFields_le vs hj.2.2 ks (by omega)
    simp only [Json.size, sizeList, Json.dump, dumpObj, List.length_cons, List.length_append]
    omega

theorem sizeFields_le (vs : List Json) (hv : WFList vs) (ks : List String) (hk : ks.length = vs.length) :
    sizeList vs ≤ (dumpFields ks vs).length := by
  match ks, vs with
  | [], [] => simp [sizeList, dumpFields]
  | [], v :: vs => simp at hk
  | k :: ks, [] => simp at hk
  | k :: ks, v :: vs =>
    simp only [WFList] at hv
    have h1 := size_le v hv.1
    have h2 := sizeFields_le vs hv.2 ks (by simpa using hk)
    simp only [sizeList, dumpFields, List.length_cons, List.length_append]
    omega

theorem sizeTail_le (l : List Json) (hl : WFList l) : sizeList l ≤ (dumpTail l).length := by
  match l with
  | [] => simp [sizeList, dumpTail]
  | x :: l =>
    simp only [WFList] at hl
    have h1 := size_le x hl.1
    have h2 := sizeTail_le l hl.2
    simp only [sizeList, dumpTail, List.length_cons, List.length_append]
    omega
end

/-- Reading back what was dumped. -/
theorem loads_dumps (j : Json) (hj : j.WF) : loads (dumps j) = .ok j := by
  unfold loads dumps
  have h := loadJson_dump j hj (j.dump.length + 1) (by have := size_le j hj; omega) []
    (by intro c hc; simp at hc)
  rw [List.append_nil] at h
  rw [String.toList_ofList, h]

end LitData
