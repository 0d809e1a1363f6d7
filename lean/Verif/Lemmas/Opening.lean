import Verif.Model.Opening
import Verif.Lemmas.Json
import Verif.Lemmas.Sample

/-! Lemmas about reading `index.json` and about setting up the serializers. -/

namespace LitData

theorem wfList_iff (l : List Json) : WFList l ↔ ∀ j ∈ l, j.WF := by
  induction l with
  | nil => simp [WFList]
  | cons a l ih => simp [WFList, ih]

theorem jsonAll_map {α β : Type} (f : Json → Py α) (g : β → Json) (h : β → α) (l : List β) (hl : ∀ b ∈ l, f (g b) = .ok (h b)) :
    jsonAll f (l.map g) = .ok (l.map h) := by
  induction l with
  | nil => rfl
  | cons b l ih =>
    rw [List.map_cons]
    unfold jsonAll
    rw [hl b (by simp), ih (fun x hx => hl x (by simp [hx]))]
    rfl

theorem nat_natJson (n : Nat) : (natJson n).nat = .ok n := by
  unfold natJson Json.nat
  simp

theorem opt_optJson {α : Type} (f : Json → Py α) (g : α → Json) (o : Option α) (hn : ∀ a, g a ≠ .null) (h : ∀ a, f (g a) = .ok a) :
    Json.opt f (optJson g o) = .ok o := by
  cases o with
  | none => rfl
  | some a =>
    have h2 := h a
    have h1 := hn a
    show Json.opt f (g a) = .ok (some a)
    generalize g a = j at *
    cases j <;> simp_all [Json.opt]

theorem natJson_ne (n : Nat) : natJson n ≠ .null := by unfold natJson; simp

theorem optJson_wf {α : Type} (f : α → Json) (h : ∀ a, (f a).WF) (o : Option α) : (optJson f o).WF := by
  cases o with
  | none => trivial
  | some a => exact h a

theorem chunkJson_wf (c : ChunkInfo) : (chunkJson c).WF := by
  unfold chunkJson
  have := optJson_wf natJson (fun _ => by simp [natJson, Json.WF]) c.dim
  simp [Json.WF, WFList, natJson, this]

theorem configJson_wf (c : IndexConfig) : (configJson c).WF := by
  unfold configJson
  simp only [Json.WF]
  refine ⟨by cases c.itemLoader <;> rfl, ?_⟩
  rw [wfList_iff]
  intro j hj
  simp only [List.mem_append, List.mem_cons, List.not_mem_nil, or_false] at hj
  rcases hj with (rfl | rfl | rfl | rfl | rfl | rfl) | hj
  · exact optJson_wf _ (fun _ => by simp [natJson, Json.WF]) _
  · exact optJson_wf _ (fun _ => by simp [natJson, Json.WF]) _
  · exact optJson_wf _ (fun _ => by simp [Json.WF]) _
  · apply optJson_wf
    intro l
    simp only [Json.WF, wfList_iff]
    intro j hj
    obtain ⟨s, _, rfl⟩ := List.mem_map.1 hj
    simp [Json.WF]
  · exact optJson_wf _ (fun _ => by simp [Json.WF]) _
  · exact optJson_wf _ (fun _ => by simp [encJson, Json.WF, WFList]) _
  · cases hl : c.itemLoader with
    | none => rw [hl] at hj; simp at hj
    | some n => rw [hl] at hj; simp at hj; rw [hj]; simp [Json.WF]

theorem chunk_chunkJson (c : ChunkInfo) : (chunkJson c).chunk = .ok c := by
  have h1 : Json.opt Json.nat (optJson natJson c.dim) = .ok c.dim := opt_optJson _ _ _ natJson_ne nat_natJson
  unfold Json.chunk Json.fieldAs chunkJson Json.field
  simp [bind, Except.bind, List.lookup_cons, nat_natJson, h1, Json.text]

theorem enc_encJson (e : EncConfig) : (encJson e).enc = .ok e := by
  unfold Json.enc Json.fieldAs encJson Json.field
  obtain ⟨a, l⟩ := e
  cases l <;> simp [bind, Except.bind, List.lookup_cons, Json.text, jsonLevel, encLevelName]

theorem config_configJson (c : IndexConfig) : (configJson c).config = .ok c := by
  obtain ⟨c1, c2, c3, c4, c5, c6, c7⟩ := c
  have h1 := fun o => opt_optJson Json.nat natJson o natJson_ne nat_natJson
  have h2 := fun o => opt_optJson Json.text .str o (by simp) (fun _ => rfl)
  have h3 := fun o => opt_optJson (Json.list Json.text) (fun l => .arr (l.map .str)) o (by simp) (fun l => by
    unfold Json.list
    simp only
    rw [jsonAll_map Json.text .str id l (fun _ _ => rfl), List.map_id])
  have h4 := fun o => opt_optJson Json.enc encJson o (by simp [encJson]) enc_encJson
  cases c7 with
  | none =>
    unfold Json.config Json.fieldAs configJson Json.hasField Json.field
    simp [bind, Except.bind, List.lookup_cons, h1, h2, h3, h4]
  | some n =>
    unfold Json.config Json.fieldAs configJson Json.hasField Json.field
    simp [bind, Except.bind, List.lookup_cons, h1, h2, h3, h4, Json.text]

theorem loads_indexText (u : Option String) (chunks : List ChunkInfo) (c : IndexConfig) :
    loads (indexText u chunks c) = .ok (.obj (["chunks", "config"] ++ (u.map fun _ => "updated_at").toList)
      ([.arr (chunks.map chunkJson), configJson c] ++ (u.map .str).toList)) := by
  unfold indexText
  apply loads_dumps
  simp only [Json.WF]
  refine ⟨by cases u <;> rfl, ?_⟩
  rw [wfList_iff]
  intro j hj
  simp only [List.mem_append, List.mem_cons, List.not_mem_nil, or_false] at hj
  rcases hj with (rfl | rfl) | hj
  · simp only [Json.WF, wfList_iff]
    intro j hj
    obtain ⟨s, _, rfl⟩ := List.mem_map.1 hj
    exact chunkJson_wf s
  · exact configJson_wf c
  · cases u with
    | none => simp at hj
    | some n => simp at hj; rw [hj]; simp [Json.WF]

theorem loadChunks_indexText (u : Option String) (chunks : List ChunkInfo) (c : IndexConfig) : loadChunks (indexText u chunks c) = .ok chunks := by
  unfold loadChunks
  rw [loads_indexText]
  have h : Json.list Json.chunk (.arr (chunks.map chunkJson)) = .ok chunks := by
    unfold Json.list
    simp only
    rw [jsonAll_map Json.chunk chunkJson id chunks (fun _ _ => chunk_chunkJson _), List.map_id]
  unfold Json.fieldAs Json.field
  cases u <;> simp [List.lookup_cons, h]

theorem loadConfig_indexText (u : Option String) (chunks : List ChunkInfo) (c : IndexConfig) : loadConfig (indexText u chunks c) = .ok c := by
  unfold loadConfig
  rw [loads_indexText]
  unfold Json.fieldAs Json.field
  cases u <;> simp [List.lookup_cons, config_configJson]

end LitData
