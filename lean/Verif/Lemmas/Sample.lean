import Verif.Model.Sample
import Verif.Lemmas.Serializers

/-! A sample that is serialized leaf by leaf is read back leaf by leaf. -/

namespace LitData

/-- `R` holds between the elements of two lists of the same length, position by position. -/
def Aligned {α β : Type} (R : α → β → Prop) : List α → List β → Prop
  | [], [] => True
  | a :: as, b :: bs => R a b ∧ Aligned R as bs
  | _, _ => False

theorem Aligned.mono {α β : Type} {R S : α → β → Prop} (h : ∀ a b, R a b → S a b) :
    ∀ {as : List α} {bs : List β}, Aligned R as bs → Aligned S as bs
  | [], [], _ => trivial
  | _ :: _, _ :: _, ⟨h1, h2⟩ => ⟨h _ _ h1, Aligned.mono h h2⟩

theorem Aligned.length {α β : Type} {R : α → β → Prop} :
    ∀ {as : List α} {bs : List β}, Aligned R as bs → as.length = bs.length
  | [], [], _ => rfl
  | _ :: _, _ :: _, ⟨_, h2⟩ => by simp [Aligned.length h2]

theorem Aligned.left {α β : Type} {R : α → β → Prop} {as : List α} {bs : List β} (h : Aligned R as bs) :
    ∀ a ∈ as, ∃ b ∈ bs, R a b := by
  match as, bs, h with
  | [], [], _ => intro a ha; simp at ha
  | a' :: as, b :: bs, ⟨h1, h2⟩ =>
    intro a ha
    rcases List.mem_cons.mp ha with rfl | ha
    · exact ⟨b, by simp, h1⟩
    · obtain ⟨b', hb, hr⟩ := Aligned.left h2 a ha
      exact ⟨b', List.mem_cons_of_mem _ hb, hr⟩

/-- How the leaves at one position are handled: serializer name, serializer, data format. -/
structure Col (V : Type) where
  key : String
  ser : Serializer V
  fmt : String

/-- The serializer `c` is the one chosen for `x`. -/
def Picks {V : Type} (sers : Table V) (x : V) (c : Col V) : Prop :=
  sers.find? (fun e => e.2.canSerialize x) = some (c.key, c.ser) ∧
    ∃ b n, c.ser.serialize x = .ok (b, n) ∧ c.fmt = formatOf c.key n

/-- A data format leads back to its serializer: it is the name of the serializer, or the name, a colon and
a suffix that is not itself a name. -/
def NamedWell {β : Type} (sers : List (String × β)) (key fmt : String) : Prop :=
  ':' ∉ key.toList ∧ (fmt = key ∨ ∃ suf, fmt = String.ofList (key.toList ++ ':' :: suf) ∧ ':' ∉ suf ∧
    sers.lookup (String.ofList suf) = none)

/-- With this serializer and data format, `y` is written and comes back as `z`. -/
def Handles {V : Type} (c : Col V) (y z : V) : Prop :=
  ∃ b n, c.ser.serialize y = .ok (b, n) ∧ c.ser.deserialize c.fmt b = .ok z ∧ recordedSize c.ser b = b.length ∧
    b.length < 2 ^ 32

/-- The bytes `d` were written for a leaf read back as `z`. -/
def Reads {V : Type} (c : Col V) (d : Bytes × Nat) (z : V) : Prop :=
  c.ser.deserialize c.fmt d.1 = .ok z ∧ d.2 = d.1.length ∧ d.1.length < 2 ^ 32

/-- Position by position over three lists. -/
def Aligned3 {α β γ : Type} (R : α → β → γ → Prop) : List α → List β → List γ → Prop
  | [], [], [] => True
  | a :: as, b :: bs, c :: cs => R a b c ∧ Aligned3 R as bs cs
  | _, _, _ => False

theorem Aligned3.length2 {α β γ : Type} {R : α → β → γ → Prop} :
    ∀ {as : List α} {bs : List β} {cs : List γ}, Aligned3 R as bs cs → as.length = bs.length
  | [], [], [], _ => rfl
  | _ :: _, _ :: _, _ :: _, ⟨_, h2⟩ => by simp [Aligned3.length2 h2]

theorem lookup_append {β : Type} (d e : List (String × β)) (k : String) :
    (d ++ e).lookup k = (d.lookup k).or (e.lookup k) := by
  induction d with
  | nil => simp
  | cons p d ih =>
    obtain ⟨k', v⟩ := p
    simp only [List.cons_append, List.lookup_cons]
    split
    · simp
    · exact ih

theorem lookup_tableSet {β : Type} (d : List (String × β)) (k : String) (v : β) (k' : String) :
    (tableSet d k v).lookup k' = if k' = k then some v else d.lookup k' := by
  induction d with
  | nil => simp [tableSet, List.lookup_cons]; split <;> simp_all
  | cons p d ih =>
    obtain ⟨k1, v1⟩ := p
    simp only [tableSet]
    split
    · rename_i h; subst h
      simp only [List.lookup_cons]
      by_cases h : k' = k1
      · subst h; simp
      · have : (k' == k1) = false := by simpa using h
        simp [this, h]
    · rename_i hne
      simp only [List.lookup_cons, ih]
      by_cases h : k' = k1
      · subst h; simp; intro h; exact absurd h hne
      · have : (k' == k1) = false := by simpa using h
        simp [this]

theorem lookup_of_mem {β : Type} (d : List (String × β)) (hn : (d.map (·.1)).Nodup) {k : String} {v : β}
    (h : (k, v) ∈ d) : d.lookup k = some v := by
  induction d with
  | nil => simp at h
  | cons p d ih =>
    obtain ⟨k1, v1⟩ := p
    simp only [List.map_cons, List.nodup_cons] at hn
    simp only [List.lookup_cons]
    rcases List.mem_cons.mp h with h | h'
    · injection h with h1 h2; subst h1; subst h2; simp
    · have : k ≠ k1 := by
        rintro rfl
        exact hn.1 (List.mem_map.mpr ⟨(k, v), h', rfl⟩)
      have : (k == k1) = false := by simpa using this
      simp only [this]
      exact ih hn.2 h'

theorem lookup_ofTable {V : Type} (sers : Table V) (k : String) :
    (ReadTable.ofTable sers).lookup k = (sers.lookup k).map fun s => (s, none) := by
  unfold ReadTable.ofTable
  induction sers with
  | nil => rfl
  | cons p d ih =>
    obtain ⟨k1, v1⟩ := p
    simp only [List.map_cons, List.lookup_cons]
    split <;> simp [ih]

/-- The serializer of the columns is found under its name in the table. -/
def ColOk {V : Type} (sers : Table V) (c : Col V) : Prop :=
  sers.lookup c.key = some c.ser ∧ NamedWell sers c.key c.fmt

theorem keyOf_unique {V : Type} {sers : Table V} {c c' : Col V} (h : ColOk sers c) (h' : ColOk sers c')
    (hf : c.fmt = c'.fmt) : c.ser = c'.ser := by
  have key : ∀ c : Col V, ColOk sers c → (splitColon c.fmt.toList).head? = some c.key.toList := by
    intro c hc
    obtain ⟨_, hk, hf | ⟨suf, hf, _, _⟩⟩ := hc
    · rw [hf, splitColon_noColon _ hk]; rfl
    · rw [hf, String.toList_ofList, splitColon_append _ _ hk]; rfl
  have e : c.key = c'.key := by
    have h1 := key c h
    rw [hf, key c' h'] at h1
    simp only [Option.some.injEq] at h1
    rw [← String.ofList_toList (s := c.key), ← String.ofList_toList (s := c'.key), h1]
  have := h.1
  rw [e, h'.1] at this
  injection this with this
  exact this.symm

theorem dataFormatToKey_named {V : Type} {sers : Table V} {c : Col V} (h : ColOk sers c) (d : ReadTable V)
    (hd : ∀ k : String, ':' ∉ k.toList → (d.lookup k).map (·.1) = sers.lookup k) :
    dataFormatToKey d c.fmt = .ok c.key := by
  obtain ⟨_, hk, hf | ⟨suf, hf, hs, hl⟩⟩ := h
  · unfold dataFormatToKey
    rw [hf, splitColon_noColon _ hk]
  · unfold dataFormatToKey
    rw [hf, String.toList_ofList, splitColon_append _ _ hk, splitColon_noColon _ hs]
    have := hd (String.ofList suf) (by rw [String.toList_ofList]; exact hs)
    rw [hl, Option.map_eq_none_iff] at this
    simp only [this, Option.isSome_none, Bool.false_eq_true, if_false]
    rw [String.ofList_toList]

theorem setupFormats_ok {V : Type} (sers : Table V) (cols : List (Col V)) (hc : ∀ c ∈ cols, ColOk sers c) :
    ∀ d : ReadTable V, (∀ k : String, ':' ∉ k.toList → (d.lookup k).map (·.1) = sers.lookup k) →
    ∃ d', setupFormats d (cols.map (·.fmt)) = .ok d' ∧ (∀ c ∈ cols, d'.lookup c.fmt = some (c.ser, some c.fmt)) ∧
      ∀ c : Col V, ColOk sers c → d.lookup c.fmt = some (c.ser, some c.fmt) → d'.lookup c.fmt = some (c.ser, some c.fmt) := by
  induction cols with
  | nil => intro d _; exact ⟨d, rfl, by simp, fun _ _ h => h⟩
  | cons c cols ih =>
    intro d hd
    have h0 := hc c (by simp)
    have hl : ∃ o, d.lookup c.key = some (c.ser, o) := by
      have := hd c.key h0.2.1
      rw [h0.1] at this
      obtain ⟨⟨s, o⟩, h1, h2⟩ := Option.map_eq_some_iff.mp this
      simp only at h2; subst h2
      exact ⟨o, h1⟩
    obtain ⟨o, hl⟩ := hl
    obtain ⟨d', h1, h2, h3⟩ := ih (fun c' h' => hc c' (List.mem_cons_of_mem _ h')) (tableSet d c.fmt (c.ser, some c.fmt)) (by
      intro k hk
      rw [lookup_tableSet]
      split
      · rename_i he
        subst he
        rcases h0.2.2 with hf | ⟨suf, hf, _, _⟩
        · rw [hf, h0.1]; rfl
        · rw [hf, String.toList_ofList] at hk
          exact absurd (by simp) hk
      · exact hd k hk)
    refine ⟨d', ?_, ?_, ?_⟩
    · rw [List.map_cons, setupFormats, dataFormatToKey_named h0 d hd]
      simp only [hl, h1]
    · intro c' hm
      rcases List.mem_cons.mp hm with rfl | hm
      · exact h3 _ h0 (by rw [lookup_tableSet, if_pos rfl])
      · exact h2 c' hm
    · intro c' hc' hl'
      apply h3 c' hc'
      rw [lookup_tableSet]
      split
      · rename_i he
        rw [keyOf_unique hc' h0 he, he]
      · exact hl'

theorem deserializeLeaves_ok {V : Type} (d : ReadTable V) (cols : List (Col V)) (ds : List (Bytes × Nat)) (zs : List V)
    (h : Aligned3 Reads cols ds zs) (hd : ∀ c ∈ cols, d.lookup c.fmt = some (c.ser, some c.fmt)) (p : Bytes) :
    deserializeLeaves d (p ++ (ds.map (·.1)).flatten) p.length (ds.map (·.2)) (cols.map (·.fmt)) = .ok zs := by
  match cols, ds, zs, h with
  | [], [], [], _ => rfl
  | c :: cols, x :: ds, z :: zs, ⟨⟨h1, h2, h3⟩, hr⟩ =>
    obtain ⟨b, n⟩ := x
    simp only at h1 h2 h3
    subst h2
    simp only [List.map_cons, List.flatten_cons, deserializeLeaves]
    rw [hd c (by simp)]
    simp only [Option.getD_some, List.drop_left, List.take_left, h1]
    have := deserializeLeaves_ok d cols ds zs hr (fun c' h' => hd c' (List.mem_cons_of_mem _ h')) (p ++ b)
    rw [List.length_append, List.append_assoc] at this
    rw [this]

theorem deserializeSample_ok {V : Type} (d : ReadTable V) (cols : List (Col V)) (ds : List (Bytes × Nat)) (zs : List V)
    (h : Aligned3 Reads cols ds zs) (hd : ∀ c ∈ cols, d.lookup c.fmt = some (c.ser, some c.fmt)) :
    deserializeSample d (cols.map (·.fmt)) (encodeData ds) = .ok zs := by
  have hlen : cols.length = ds.length := h.length2
  have hsz : ∀ n ∈ ds.map (·.2), n < 2 ^ 32 := by
    clear hd hlen
    induction cols generalizing ds zs with
    | nil => match ds, zs, h with
      | [], [], _ => simp
    | cons c cols ih => match ds, zs, h with
      | x :: ds, z :: zs, ⟨⟨_, h2, h3⟩, hr⟩ =>
        intro n hn
        rcases List.mem_cons.mp hn with rfl | hn
        · show x.2 < 2 ^ 32
          omega
        · exact ih ds zs hr n hn
  have hl : ((ds.map (·.2)).flatMap le32).length = 4 * (cols.map (·.fmt)).length := by
    rw [flatMap_le32_length, List.length_map, List.length_map, hlen]
  unfold deserializeSample encodeData
  rw [List.take_left' hl, u32s_flatMap _ hsz]
  simp only
  rw [← hl]
  exact deserializeLeaves_ok d cols ds zs h hd _

theorem serializeNext_ok {V : Type} (extra : Table V) (cols : List (Col V))
    (he : ∀ c ∈ cols, extra.lookup c.fmt = some c.ser) (ys zs : List V) (h : Aligned3 Handles cols ys zs) :
    ∃ ds, serializeNext extra ys (cols.map (·.fmt)) = .ok ds ∧ Aligned3 Reads cols ds zs := by
  match cols, ys, zs, h with
  | [], [], [], _ => exact ⟨[], rfl, trivial⟩
  | c :: cols, y :: ys, z :: zs, ⟨⟨b, n, h1, h2, h3, h4⟩, hr⟩ =>
    obtain ⟨ds, h5, h6⟩ := serializeNext_ok extra cols (fun c' h' => he c' (List.mem_cons_of_mem _ h')) ys zs hr
    refine ⟨(b, b.length) :: ds, ?_, ⟨h2, rfl, h4⟩, h6⟩
    rw [List.map_cons, serializeNext, he c (by simp)]
    simp only [h1, h5, h3]

theorem serializeFirst_ok {V : Type} (sers : Table V) (cols : List (Col V)) (xs zs : List V)
    (hc : ∀ c ∈ cols, ColOk sers c) (hp : Aligned (Picks sers) xs cols) (hh : Aligned3 Handles cols xs zs) :
    ∀ extra : Table V, (∀ c : Col V, ColOk sers c → ∀ s, extra.lookup c.fmt = some s → s = c.ser) →
    ∃ ds extra', serializeFirst sers extra xs = .ok (ds, cols.map (·.fmt), extra') ∧ Aligned3 Reads cols ds zs ∧
      (∀ c ∈ cols, extra'.lookup c.fmt = some c.ser) ∧
      ∀ n s, extra.lookup n = some s → extra'.lookup n = some s := by
  match cols, xs, zs, hp, hh with
  | [], [], [], _, _ => intro extra _; exact ⟨[], extra, rfl, trivial, by simp, fun _ _ h => h⟩
  | c :: cols, x :: xs, z :: zs, ⟨⟨hf, b, n, hs, hn⟩, hp⟩, ⟨⟨b', n', h1, h2, h3, h4⟩, hr⟩ =>
    intro extra hex
    rw [hs] at h1
    simp only [Except.ok.injEq, Prod.mk.injEq] at h1
    obtain ⟨rfl, rfl⟩ := h1
    have h0 := hc c (by simp)
    generalize hE : (if (extra.lookup (formatOf c.key n)).isSome then extra else extra ++ [(formatOf c.key n, c.ser)]) = e1
    have hE1 : ∀ m s, extra.lookup m = some s → e1.lookup m = some s := by
      intro m s h
      rw [← hE]
      split
      · exact h
      · rw [lookup_append, h]; rfl
    have hE2 : e1.lookup c.fmt = some c.ser := by
      rw [← hE, ← hn]
      split
      · rename_i hsome
        obtain ⟨s, hs'⟩ := Option.isSome_iff_exists.mp hsome
        rw [hs', hex c h0 s hs']
      · rename_i hnone
        rw [lookup_append]
        have : extra.lookup c.fmt = none := Option.not_isSome_iff_eq_none.mp hnone
        rw [this]
        simp
    have hE3 : ∀ c' : Col V, ColOk sers c' → ∀ s, e1.lookup c'.fmt = some s → s = c'.ser := by
      intro c' hc' s hs'
      by_cases hfm : c'.fmt = c.fmt
      · rw [hfm, hE2] at hs'
        injection hs' with hs'
        rw [← hs', keyOf_unique hc' h0 hfm]
      · apply hex c' hc' s
        rw [← hE, ← hn] at hs'
        split at hs'
        · exact hs'
        · rw [lookup_append] at hs'
          have : ([(c.fmt, c.ser)] : Table V).lookup c'.fmt = none := by
            rw [List.lookup_cons]
            have : (c'.fmt == c.fmt) = false := by simpa using hfm
            simp [this]
          rw [this, Option.or_none] at hs'
          exact hs'
    obtain ⟨ds, e2, g1, g2, g3, g4⟩ :=
      serializeFirst_ok sers cols xs zs (fun c' h' => hc c' (List.mem_cons_of_mem _ h')) hp hr e1 hE3
    refine ⟨(b, b.length) :: ds, e2, ?_, ⟨⟨h2, rfl, h4⟩, g2⟩, ?_, fun m s h => g4 m s (hE1 m s h)⟩
    · rw [serializeFirst, serializeLeaf, hf]
      simp only [hs, hE, g1, h3, List.map_cons, hn]
    · intro c' hm
      rcases List.mem_cons.mp hm with rfl | hm
      · exact g4 _ _ hE2
      · exact g3 c' hm

/-- The whole stream: the first sample fixes the columns, the others follow them. -/
theorem serializeAll_next {V α : Type} (sers : Table V) (flat : α → List V × TSpec) (cols : List (Col V)) (hne : cols ≠ [])
    (st : SerState V) (hf : st.format = some (cols.map (·.fmt))) (he : ∀ c ∈ cols, st.extra.lookup c.fmt = some c.ser)
    (ys : List α) (zs : α → List V) (h : ∀ y ∈ ys, Aligned3 Handles cols (flat y).1 (zs y)) :
    ∃ dss : List (List (Bytes × Nat)), serializeAll sers flat st ys = .ok (dss.map encodeData, st) ∧
      Aligned (fun y ds => Aligned3 Reads cols ds (zs y)) ys dss := by
  induction ys with
  | nil => exact ⟨[], rfl, trivial⟩
  | cons y ys ih =>
    obtain ⟨dss, h1, h2⟩ := ih (fun y' h' => h y' (List.mem_cons_of_mem _ h'))
    obtain ⟨ds, h3, h4⟩ := serializeNext_ok st.extra cols he (flat y).1 (zs y) (h y (by simp))
    refine ⟨ds :: dss, ?_, h4, h2⟩
    have hne' : cols.map (·.fmt) ≠ [] := by simpa using hne
    simp only [serializeAll, serializeSample, hf, if_neg hne', h3, h1, List.map_cons]

end LitData
