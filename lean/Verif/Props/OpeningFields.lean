import Verif.Props.Opening

/-! Property C79: the fields of a dictionary that was read from JSON. -/

namespace LitData.Props
open LitData

/-- **C79, fields.** Of several fields with one name the last one counts. -/
theorem c79_last_field (l : List (String × Json)) (key : String) (v : Json) :
    (Json.field key (.obj (l.map (·.1)) (l.map (·.2))) = .ok v ↔ ∃ a b, l = a ++ (key, v) :: b ∧ ∀ p ∈ b, p.1 ≠ key) ∧
    (Json.hasField key (.obj (l.map (·.1)) (l.map (·.2))) = true ↔ ∃ p ∈ l, p.1 = key) := by
  have hz : (l.map (·.1)).zip (l.map (·.2)) = l := by
    induction l with
    | nil => rfl
    | cons a l ih => simp [ih]
  refine ⟨?_, ?_⟩
  · simp only [Json.field, hz]
    have h := @List.lookup_eq_some_iff _ _ _ _ l.reverse key v
    constructor
    · intro h0
      split at h0
      · rename_i w hw
        injection h0 with h0
        subst h0
        obtain ⟨a, b, h1, h2⟩ := h.1 hw
        refine ⟨b.reverse, a.reverse, ?_, fun p hp => ?_⟩
        · have := congrArg List.reverse h1
          simpa using this
        · have := h2 p (List.mem_reverse.1 hp)
          simp only [bne_iff_ne, ne_eq] at this
          exact fun e => this e.symm
      · cases h0
    · rintro ⟨a, b, rfl, h2⟩
      rw [h.2 ⟨b.reverse, a.reverse, by simp, fun p hp => by
        simp only [bne_iff_ne, ne_eq]
        exact fun e => h2 p (List.mem_reverse.1 hp) e.symm⟩]
  · simp only [Json.hasField, hz]
    rw [lookup_isSome_iff]
    simp only [List.mem_map, List.mem_reverse]

example : Json.field "a" (.obj ["a", "b", "a"] [.null, .bool true, .bool false]) = .ok (.bool false) :=
  (c79_last_field [("a", .null), ("b", .bool true), ("a", .bool false)] "a" (.bool false)).1.2
    ⟨[("a", .null), ("b", .bool true)], [], rfl, by simp⟩

end LitData.Props
