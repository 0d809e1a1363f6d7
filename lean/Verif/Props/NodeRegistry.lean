import Verif.Model.NodeRegistry

/-!
C100: container types of the user read back as themselves.
-/

namespace LitData.Props
open LitData

/-- What the claim needs: every class that can be dumped is the one its name stands for. -/
def NamesRight (r : NodeRegistry) : Prop := ∀ c d, r.serial c = some d → d.name ≠ noTypeName → r.byName d.name = some c

/-- The functions for the context of every class are inverse to each other. -/
def ContextsRight (jsonText : Nat → String) (jsonValue : String → Nat) (r : NodeRegistry) : Prop :=
  ∀ c d, r.serial c = some d → ∀ ctx, (d.ofText.getD jsonValue) ((d.toText.getD jsonText) ctx) = ctx

theorem load_dump (jsonText : Nat → String) (jsonValue : String → Nat) (r : NodeRegistry) (hn : NamesRight r) (hc : ContextsRight jsonText jsonValue r) :
    ∀ (f : ClassSpecs) (s : NameSpecs), dumpSpecs jsonText r f = .ok s → loadSpecs jsonValue r s = .ok f
  | .nil, s, h => by
    simp only [dumpSpecs, Except.ok.injEq] at h
    subst h
    rfl
  | .leaf rest, s, h => by
    unfold dumpSpecs at h
    cases hr : dumpSpecs jsonText r rest with
    | error e => rw [hr] at h; simp [Except.bind] at h
    | ok t =>
      rw [hr] at h
      simp only [Except.bind, Except.ok.injEq] at h
      subst h
      unfold loadSpecs
      rw [load_dump jsonText jsonValue r hn hc rest t hr]
      rfl
  | .node c ctx children rest, s, h => by
    unfold dumpSpecs at h
    cases hd : r.serial c with
    | none => rw [hd] at h; simp at h
    | some d =>
      rw [hd] at h
      simp only at h
      split at h
      · simp at h
      · rename_i hne
        cases hk : dumpSpecs jsonText r children with
        | error e => rw [hk] at h; simp [Except.bind] at h
        | ok k =>
          rw [hk] at h
          cases hr : dumpSpecs jsonText r rest with
          | error e => rw [hr] at h; simp [Except.bind] at h
          | ok t =>
            rw [hr] at h
            simp only [Except.bind, Except.ok.injEq] at h
            subst h
            unfold loadSpecs
            rw [hn c d hd hne]
            simp only [hd]
            rw [load_dump jsonText jsonValue r hn hc children k hk, load_dump jsonText jsonValue r hn hc rest t hr]
            simp only [Except.bind]
            rw [hc c d hd ctx]

/-- **C100, the exact condition.** If the functions for contexts are inverse to each other, every structure that can be dumped is loaded as it was exactly when each name stands for the class that is dumped under it. -/
theorem c100_right_iff (jsonText : Nat → String) (jsonValue : String → Nat) (r : NodeRegistry) (hc : ContextsRight jsonText jsonValue r) :
    (∀ f s, dumpSpecs jsonText r f = .ok s → loadSpecs jsonValue r s = .ok f) ↔ NamesRight r := by
  constructor
  · intro h c d hd hne
    have h1 : dumpSpecs jsonText r (.node c 0 .nil .nil) = .ok (.node d.name ((d.toText.getD jsonText) 0) .nil .nil) := by
      simp only [dumpSpecs, hd, if_neg hne, Except.bind]
    have h2 := h _ _ h1
    unfold loadSpecs at h2
    cases hb : r.byName d.name with
    | none => rw [hb] at h2; simp at h2
    | some typ =>
      rw [hb] at h2
      simp only at h2
      cases hs : r.serial typ with
      | none => rw [hs] at h2; simp at h2
      | some d' =>
        rw [hs] at h2
        simp only [loadSpecs, Except.bind, Except.ok.injEq, ClassSpecs.node.injEq] at h2
        rw [h2.1]
  · intro hn f s
    exact load_dump jsonText jsonValue r hn hc f s

/-- **C100, one registration.** A registration that is accepted keeps the names right exactly when no other class has the same name. -/
theorem c100_step (r : NodeRegistry) (hr : NamesRight r) (q : RegisterCall) (hq : (registerPrivate r q).2 = none) :
    NamesRight (registerPrivate r q).1 ↔ ∀ c d, c ≠ q.cls → r.serial c = some d → d.name = q.typeName → d.name = noTypeName := by
  have he : (registerPrivate r q).1 = ⟨fun c => if c = q.cls then some q.fns else r.nodes c, fun c => if c = q.cls then some ⟨q.typeName, q.toText, q.ofText⟩ else r.serial c,
      fun n => if n = q.typeName then some q.cls else r.byName n⟩ := by
    unfold registerPrivate at hq ⊢
    split at hq
    · simp at hq
    · rename_i h
      rw [if_neg h]
  rw [he]
  constructor
  · intro h c d hc hd hn
    apply Classical.byContradiction
    intro hne
    have : (if d.name = q.typeName then some q.cls else r.byName d.name) = some c := h c d (by show (if c = q.cls then _ else r.serial c) = _; rw [if_neg hc]; exact hd) hne
    rw [if_pos hn] at this
    exact hc (Option.some.inj this).symm
  · intro h c d hd hne
    show (if d.name = q.typeName then some q.cls else r.byName d.name) = some c
    by_cases hc : c = q.cls
    · have : (some ⟨q.typeName, q.toText, q.ofText⟩ : Option SerialDef) = some d := by
        rw [← hd]; show _ = if c = q.cls then _ else _; rw [if_pos hc]
      have hd' := Option.some.inj this
      subst hd'
      rw [if_pos rfl, hc]
    · have hd' : r.serial c = some d := by
        rw [← hd]; show _ = if c = q.cls then _ else _; rw [if_neg hc]
      by_cases hn : d.name = q.typeName
      · exact absurd (h c d hc hd' hn) hne
      · rw [if_neg hn]
        exact hr c d hd' hne

/-- Every name in the registry was given in a call, for the class that has it. -/
theorem registered_from (qs : List RegisterCall) : ∀ (r : NodeRegistry) (c : Nat) (d : SerialDef), (registerNodes r qs).serial c = some d →
    r.serial c = some d ∨ ∃ q ∈ qs, q.cls = c ∧ q.typeName = d.name := by
  induction qs with
  | nil => intro r c d h; exact .inl h
  | cons q qs ih =>
    intro r c d h
    rcases ih (registerNode r q).1 c d h with h | ⟨q', hq', h'⟩
    · unfold registerNode at h
      split at h
      · exact .inl h
      · unfold registerPrivate at h
        split at h
        · exact .inl h
        · by_cases hc : c = q.cls
          · have : (some ⟨q.typeName, q.toText, q.ofText⟩ : Option SerialDef) = some d := by
              rw [← h]; show _ = if c = q.cls then _ else _; rw [if_pos hc]
            have hd := Option.some.inj this
            subst hd
            exact .inr ⟨q, List.mem_cons_self, hc.symm, rfl⟩
          · refine .inl ?_
            rw [← h]; show _ = if c = q.cls then _ else _; rw [if_neg hc]
    · exact .inr ⟨q', List.mem_cons_of_mem _ hq', h'⟩

/-- **C100.** Make any registrations, some of which may raise. If no two of them give the same name to different classes, then every structure that can be dumped is loaded as it was. -/
theorem c100_roundtrip (jsonText : Nat → String) (jsonValue : String → Nat) (qs : List RegisterCall)
    (hnames : ∀ q ∈ qs, ∀ q' ∈ qs, q.name = q'.name → q.name ≠ none → q.name ≠ some noTypeName → q.cls = q'.cls)
    (hc : ContextsRight jsonText jsonValue (registerNodes .empty qs)) (f : ClassSpecs) (s : NameSpecs) (h : dumpSpecs jsonText (registerNodes .empty qs) f = .ok s) :
    loadSpecs jsonValue (registerNodes .empty qs) s = .ok f := by
  refine load_dump jsonText jsonValue _ ?_ hc f s h
  have key : ∀ (done todo : List RegisterCall), qs = done ++ todo → NamesRight (registerNodes .empty done) → NamesRight (registerNodes .empty qs) := by
    intro done todo
    induction todo generalizing done with
    | nil => intro he hr; rw [he, List.append_nil]; exact hr
    | cons q todo ih =>
      intro he hr
      refine ih (done ++ [q]) (by rw [he, List.append_assoc]; rfl) ?_
      have hf : registerNodes .empty (done ++ [q]) = (registerNode (registerNodes .empty done) q).1 := by
        unfold registerNodes; rw [List.foldl_append]; rfl
      rw [hf]
      unfold registerNode
      split
      · exact hr
      · cases hp : (registerPrivate (registerNodes .empty done) q).2 with
        | some e =>
          have : (registerPrivate (registerNodes .empty done) q).1.serial = (registerNodes .empty done).serial ∧
              (registerPrivate (registerNodes .empty done) q).1.byName = (registerNodes .empty done).byName := by
            unfold registerPrivate at hp ⊢
            split at hp
            · rename_i hh; rw [if_pos hh]; exact ⟨rfl, rfl⟩
            · simp at hp
          unfold NamesRight
          rw [this.1, this.2]
          exact hr
        | none =>
          rw [c100_step _ hr q hp]
          intro c d hcq hd hn
          apply Classical.byContradiction
          intro hne
          rcases registered_from done .empty c d hd with h0 | ⟨q', hq', h1, h2⟩
          · simp [NodeRegistry.empty] at h0
          · have e1 : q'.typeName = q.typeName := by rw [h2, hn]
            have nn : ∀ p : RegisterCall, p.typeName ≠ noTypeName → p.name = some p.typeName := by
              intro p hp
              unfold RegisterCall.typeName at hp ⊢
              cases hpn : p.name with
              | none => rw [hpn] at hp; exact absurd rfl hp
              | some n => rfl
            have a1 := nn q' (by rw [h2]; exact hne)
            have a2 := nn q (by rw [← hn]; exact hne)
            have := hnames q' (by rw [he]; exact List.mem_append_left _ hq') q (by rw [he]; exact List.mem_append_right _ List.mem_cons_self)
              (by rw [a1, a2, e1]) (by rw [a1]; simp) (by rw [a1, h2]; intro hx; exact hne (Option.some.inj hx))
            exact hcq (by rw [← h1, this])
  exact key [] qs rfl (by intro c d hd; simp [registerNodes, NodeRegistry.empty] at hd)

/-- **C100 fails: a name that is given twice.** Once a class is registered under a name that another class has, every structure with the other class is loaded with the new one, without an error. -/
theorem c100_taken_over (jsonText : Nat → String) (jsonValue : String → Nat) (r : NodeRegistry) (c : Nat) (d : SerialDef) (hd : r.serial c = some d) (hne : d.name ≠ noTypeName)
    (q : RegisterCall) (hq : (registerNode r q).2 = none) (hqc : q.cls ≠ c) (hn : q.name = some d.name) (ctx : Nat) :
    let r' := (registerNode r q).1
    ∃ s, dumpSpecs jsonText r' (.node c ctx (.leaf .nil) .nil) = .ok s ∧
      loadSpecs jsonValue r' s = .ok (.node q.cls ((q.ofText.getD jsonValue) ((d.toText.getD jsonText) ctx)) (.leaf .nil) .nil) := by
  intro r'
  have ht : q.typeName = d.name := by unfold RegisterCall.typeName; rw [hn]; rfl
  have he : r' = ⟨fun c => if c = q.cls then some q.fns else r.nodes c, fun c => if c = q.cls then some ⟨q.typeName, q.toText, q.ofText⟩ else r.serial c,
      fun n => if n = q.typeName then some q.cls else r.byName n⟩ := by
    show (registerNode r q).1 = _
    unfold registerNode at hq ⊢
    split at hq
    · simp at hq
    · rename_i h0
      rw [if_neg h0]
      unfold registerPrivate at hq ⊢
      split at hq
      · simp at hq
      · rename_i h
        rw [if_neg h]
  have hs : r'.serial c = some d := by rw [he]; show (if c = q.cls then _ else _) = _; rw [if_neg (Ne.symm hqc)]; exact hd
  have hs' : r'.serial q.cls = some ⟨q.typeName, q.toText, q.ofText⟩ := by rw [he]; show (if q.cls = q.cls then _ else _) = _; rw [if_pos rfl]
  have hb : r'.byName d.name = some q.cls := by rw [he]; show (if d.name = q.typeName then _ else _) = _; rw [if_pos ht.symm]
  refine ⟨.node d.name ((d.toText.getD jsonText) ctx) (.leaf .nil) .nil, ?_, ?_⟩
  · simp only [dumpSpecs, hs, if_neg hne, Except.bind]
  · simp only [loadSpecs, hb, hs', Except.bind]

/-- **C100, calls that raise.** A call for a class that is registered raises and changes nothing. -/
theorem c100_again (r : NodeRegistry) (q : RegisterCall) (h : (r.nodes q.cls).isSome = true) : registerNode r q = (r, some .valueError) := by
  unfold registerNode
  rw [if_pos h]

/-- **C100 fails: a call that raises leaves half of itself.** A call for a new class with a function for only one direction of the context raises, but the class is a node from then on: samples with it are taken apart and their structure
cannot be dumped, whatever calls of `register_pytree_node` follow, since all of them for this class raise too. -/
theorem c100_half (jsonText : Nat → String) (r : NodeRegistry) (q : RegisterCall) (hnew : r.nodes q.cls = none) (hser : r.serial q.cls = none) (hhalf : q.toText.isNone ≠ q.ofText.isNone) :
    (registerNode r q).2 = some .valueError ∧
    ∀ qs, let r' := registerNodes (registerNode r q).1 qs
      r'.nodes q.cls = some q.fns ∧ (∀ q', q'.cls = q.cls → registerNode r' q' = (r', some .valueError)) ∧
      ∀ ctx children rest, dumpSpecs jsonText r' (.node q.cls ctx children rest) = .error .notImplemented := by
  have he : registerNode r q = ({ r with nodes := fun c => if c = q.cls then some q.fns else r.nodes c }, some .valueError) := by
    unfold registerNode registerPrivate
    rw [hnew, if_neg (by decide), if_pos hhalf]
  refine ⟨by rw [he], ?_⟩
  intro qs
  have inv : ∀ (qs : List RegisterCall) (u : NodeRegistry), u.nodes q.cls = some q.fns → u.serial q.cls = none →
      (registerNodes u qs).nodes q.cls = some q.fns ∧ (registerNodes u qs).serial q.cls = none := by
    intro qs
    induction qs with
    | nil => intro u h1 h2; exact ⟨h1, h2⟩
    | cons p qs ih =>
      intro u h1 h2
      refine ih (registerNode u p).1 ?_ ?_
      · unfold registerNode
        split
        · exact h1
        · rename_i hp
          have hpc : q.cls ≠ p.cls := by intro hh; rw [← hh, h1] at hp; simp at hp
          unfold registerPrivate
          split
          · show (if q.cls = p.cls then _ else _) = _; rw [if_neg hpc]; exact h1
          · show (if q.cls = p.cls then _ else _) = _; rw [if_neg hpc]; exact h1
      · unfold registerNode
        split
        · exact h2
        · rename_i hp
          have hpc : q.cls ≠ p.cls := by intro hh; rw [← hh, h1] at hp; simp at hp
          unfold registerPrivate
          split
          · exact h2
          · show (if q.cls = p.cls then _ else _) = _; rw [if_neg hpc]; exact h2
  obtain ⟨i1, i2⟩ := inv qs (registerNode r q).1 (by rw [he]; show (if q.cls = q.cls then _ else _) = _; rw [if_pos rfl]) (by rw [he]; exact hser)
  refine ⟨i1, ?_, ?_⟩
  · intro q' hq'
    exact c100_again _ q' (by rw [hq', i1]; rfl)
  · intro ctx children rest
    unfold dumpSpecs
    rw [i2]

/-- A call of `register_pytree_node` is its two steps. -/
theorem c100_two_steps (r : NodeRegistry) (q : RegisterCall) :
    registerNode r q = match registerCheck r q with
      | some e => (r, some e)
      | none => registerPrivate r q := by
  unfold registerNode registerCheck
  by_cases h : (r.nodes q.cls).isSome = true
  · rw [if_pos h, if_pos h]
  · rw [if_neg h, if_neg h]

/-- **C100 fails: two threads.** The lock is given back between the two steps. If two threads register a new class and both have checked before either enters it, both are accepted, and the class has the functions and the name of the one
that came last; one after the other, the second call raises and the first one holds. -/
theorem c100_two_threads (r : NodeRegistry) (q q' : RegisterCall) (hc : q'.cls = q.cls) (hnew : r.nodes q.cls = none) (hq : q.toText.isNone = q.ofText.isNone) (hq' : q'.toText.isNone = q'.ofText.isNone) :
    registerCheck r q = none ∧ registerCheck r q' = none ∧
    (let r1 := registerPrivate r q
     let r2 := registerPrivate r1.1 q'
     r1.2 = none ∧ r2.2 = none ∧ r2.1.nodes q.cls = some q'.fns ∧ (r2.1.serial q.cls).map (·.name) = some q'.typeName ∧ r2.1.byName q.typeName = some q.cls ∧
     registerNode r1.1 q' = (r1.1, some .valueError) ∧ r1.1.nodes q.cls = some q.fns) := by
  have h1 : ¬ (q.toText.isNone ≠ q.ofText.isNone) := fun h => h hq
  have h2 : ¬ (q'.toText.isNone ≠ q'.ofText.isNone) := fun h => h hq'
  have hn : (registerPrivate r q).1.nodes q.cls = some q.fns := by
    unfold registerPrivate; rw [if_neg h1]; show (if q.cls = q.cls then _ else _) = _; rw [if_pos rfl]
  refine ⟨?_, ?_, ?_, ?_, ?_, ?_, ?_, ?_, hn⟩
  · unfold registerCheck; rw [hnew]; rfl
  · unfold registerCheck; rw [hc, hnew]; rfl
  · unfold registerPrivate; rw [if_neg h1]
  · unfold registerPrivate; rw [if_neg h2]
  · unfold registerPrivate; rw [if_neg h2]; show (if q.cls = q'.cls then _ else _) = _; rw [if_pos hc.symm]
  · unfold registerPrivate; rw [if_neg h2]; show Option.map _ (if q.cls = q'.cls then _ else _) = _; rw [if_pos hc.symm]; rfl
  · unfold registerPrivate
    rw [if_neg h2, if_neg h1]
    show (if q.typeName = q'.typeName then some q'.cls else if q.typeName = q.typeName then some q.cls else _) = _
    rw [hc]
    split
    · rfl
    · rw [if_pos rfl]
  · exact c100_again _ q' (by rw [hc, hn]; rfl)

/-- The hypotheses of `c100_two_threads` and of `c100_half` can be met. -/
example : NodeRegistry.empty.nodes 7 = none ∧ NodeRegistry.empty.serial 7 = none ∧
    (⟨7, 1, some "a.A", none, none⟩ : RegisterCall).toText.isNone = (⟨7, 1, some "a.A", none, none⟩ : RegisterCall).ofText.isNone ∧
    (⟨7, 1, some "a.A", some (fun _ => ""), none⟩ : RegisterCall).toText.isNone ≠ (⟨7, 1, some "a.A", some (fun _ => ""), none⟩ : RegisterCall).ofText.isNone := by decide +kernel

/-- **C100, a process that has not registered the class.** A structure that was dumped with a class whose name nobody has registered cannot be loaded. -/
theorem c100_unregistered (jsonValue : String → Nat) (qs : List RegisterCall) (name text : String) (hne : name ≠ noTypeName) (h : ∀ q ∈ qs, q.name ≠ some name) (s t : NameSpecs) :
    loadSpecs jsonValue (registerNodes .empty qs) (.node name text s t) = .error .notImplemented := by
  have key : ∀ (qs : List RegisterCall) (u : NodeRegistry), (∀ q ∈ qs, q.name ≠ some name) → u.byName name = none → (registerNodes u qs).byName name = none := by
    intro qs
    induction qs with
    | nil => intro u _ hu; exact hu
    | cons p qs ih =>
      intro u hq hu
      refine ih (registerNode u p).1 (fun q hqm => hq q (List.mem_cons_of_mem _ hqm)) ?_
      have hp : name ≠ p.typeName := by
        unfold RegisterCall.typeName
        cases hpn : p.name with
        | none => exact hne
        | some n => intro hh; exact hq p List.mem_cons_self (by rw [hpn, hh]; rfl)
      unfold registerNode
      split
      · exact hu
      · unfold registerPrivate
        split
        · exact hu
        · show (if name = p.typeName then _ else _) = _
          rw [if_neg hp]
          exact hu
  unfold loadSpecs
  rw [key qs .empty h rfl]

/-- The classes of a structure. -/
def classesOf : ClassSpecs → List Nat
  | .nil => []
  | .leaf rest => classesOf rest
  | .node c _ children rest => c :: (classesOf children ++ classesOf rest)

/-- **C100, loading finds what it needs.** After any calls of `register_pytree_node` and `_register_pytree_node` (which enters a class anew), accepted or not, loading a structure raises nothing but `NotImplementedError`, and every class of a structure that is
loaded is a node, so that samples can be put together with it. -/
theorem c100_loaded_known (jsonValue : String → Nat) (calls : List (Bool × RegisterCall)) (s : NameSpecs) :
    let r := calls.foldl (fun r p => (if p.1 then registerNode r p.2 else registerPrivate r p.2).1) NodeRegistry.empty
    (∀ e, loadSpecs jsonValue r s = .error e → e = .notImplemented) ∧ ∀ f, loadSpecs jsonValue r s = .ok f → ∀ c ∈ classesOf f, (r.nodes c).isSome = true := by
  intro r
  have step : ∀ (u : NodeRegistry) (q : RegisterCall), (∀ n c, u.byName n = some c → (u.serial c).isSome = true ∧ (u.nodes c).isSome = true) →
      ∀ n c, (registerPrivate u q).1.byName n = some c → ((registerPrivate u q).1.serial c).isSome = true ∧ ((registerPrivate u q).1.nodes c).isSome = true := by
    intro u q hu n c h
    unfold registerPrivate at h ⊢
    split at h
    · rename_i hh
      rw [if_pos hh]
      refine ⟨(hu n c h).1, ?_⟩
      show Option.isSome (if c = q.cls then _ else _) = true
      split
      · rfl
      · exact (hu n c h).2
    · rename_i hh
      rw [if_neg hh]
      have h : (if n = q.typeName then some q.cls else u.byName n) = some c := h
      show Option.isSome (if c = q.cls then _ else _) = true ∧ Option.isSome (if c = q.cls then _ else _) = true
      by_cases hc : c = q.cls
      · rw [if_pos hc, if_pos hc]; exact ⟨rfl, rfl⟩
      · rw [if_neg hc, if_neg hc]
        split at h
        · exact absurd (Option.some.inj h).symm hc
        · exact hu n c h
  have inv : ∀ (calls : List (Bool × RegisterCall)) (u : NodeRegistry), (∀ n c, u.byName n = some c → (u.serial c).isSome = true ∧ (u.nodes c).isSome = true) →
      ∀ n c, (calls.foldl (fun r p => (if p.1 then registerNode r p.2 else registerPrivate r p.2).1) u).byName n = some c →
        ((calls.foldl (fun r p => (if p.1 then registerNode r p.2 else registerPrivate r p.2).1) u).serial c).isSome = true ∧
        ((calls.foldl (fun r p => (if p.1 then registerNode r p.2 else registerPrivate r p.2).1) u).nodes c).isSome = true := by
    intro calls
    induction calls with
    | nil => intro u hu; exact hu
    | cons p calls ih =>
      intro u hu
      refine ih _ ?_
      obtain ⟨checked, q⟩ := p
      cases checked with
      | false => exact step u q hu
      | true =>
        have : ∀ n c, (registerNode u q).1.byName n = some c → ((registerNode u q).1.serial c).isSome = true ∧ ((registerNode u q).1.nodes c).isSome = true := by
          unfold registerNode
          split
          · exact hu
          · exact step u q hu
        exact this
  have hr : ∀ n c, r.byName n = some c → (r.serial c).isSome = true ∧ (r.nodes c).isSome = true := inv calls .empty (by intro n c h; simp [NodeRegistry.empty] at h)
  clear_value r
  induction s with
  | nil =>
    refine ⟨by intro e h; simp [loadSpecs] at h, ?_⟩
    intro f h
    simp only [loadSpecs, Except.ok.injEq] at h
    subst h
    intro c hc
    simp [classesOf] at hc
  | leaf rest ih =>
    unfold loadSpecs
    cases hl : loadSpecs jsonValue r rest with
    | error e => exact ⟨by intro e' h; simp only [Except.bind, Except.error.injEq] at h; subst h; exact ih.1 _ hl, by intro f h; simp [Except.bind] at h⟩
    | ok t =>
      refine ⟨by intro e h; simp [Except.bind] at h, ?_⟩
      intro f h
      simp only [Except.bind, Except.ok.injEq] at h
      subst h
      exact ih.2 t hl
  | node name text children rest ihc ihr =>
    unfold loadSpecs
    cases hb : r.byName name with
    | none => exact ⟨by intro e h; simp only [Except.error.injEq] at h; exact h.symm, by intro f h; simp at h⟩
    | some typ =>
      obtain ⟨h1, h2⟩ := hr name typ hb
      simp only
      cases hs : r.serial typ with
      | none => rw [hs] at h1; simp at h1
      | some d =>
        simp only
        cases hl : loadSpecs jsonValue r children with
        | error e => exact ⟨by intro e' h; simp only [Except.bind, Except.error.injEq] at h; subst h; exact ihc.1 _ hl, by intro f h; simp [Except.bind] at h⟩
        | ok k =>
          cases ht : loadSpecs jsonValue r rest with
          | error e => exact ⟨by intro e' h; simp only [Except.bind, Except.error.injEq] at h; subst h; exact ihr.1 _ ht, by intro f h; simp [Except.bind] at h⟩
          | ok t =>
            refine ⟨by intro e h; simp [Except.bind] at h, ?_⟩
            intro f h
            simp only [Except.bind, Except.ok.injEq] at h
            subst h
            intro c hc
            rcases List.mem_cons.1 hc with rfl | hc
            · exact h2
            · rcases List.mem_append.1 hc with hc | hc
              · exact ihc.2 k hl c hc
              · exact ihr.2 t ht c hc

/-- Two classes with two names, one of them with its own context functions, and a third call that is refused: the hypotheses of `c100_roundtrip` can be met, and structures with both classes can be dumped. -/
example :
    let text := fun n => String.ofList (List.replicate n 'a')
    let qs : List RegisterCall := [⟨1, 1, some "a.A", none, none⟩, ⟨2, 2, some "a.B", some (fun n => String.ofList (List.replicate (n + 1) 'b')), some (fun t => t.length - 1)⟩, ⟨1, 3, some "a.A", none, none⟩]
    (∀ q ∈ qs, ∀ q' ∈ qs, q.name = q'.name → q.name ≠ none → q.name ≠ some noTypeName → q.cls = q'.cls) ∧
    ContextsRight text String.length (registerNodes .empty qs) ∧
    dumpSpecs text (registerNodes .empty qs) (.node 1 0 (.leaf (.node 2 5 (.leaf .nil) .nil)) .nil) = .ok (.node "a.A" "" (.leaf (.node "a.B" "bbbbbb" (.leaf .nil) .nil)) .nil) := by
  refine ⟨by decide +kernel, ?_, by decide +kernel⟩
  intro c d hd ctx
  match c, hd with
  | 1, hd =>
    obtain rfl := Option.some.inj (show some (⟨"a.A", none, none⟩ : SerialDef) = some d from hd)
    simp
  | 2, hd =>
    obtain rfl := Option.some.inj (show some (⟨"a.B", some (fun n => String.ofList (List.replicate (n + 1) 'b')), some (fun t => t.length - 1)⟩ : SerialDef) = some d from hd)
    simp
  | 0, hd => exact absurd (show (none : Option SerialDef) = some d from hd) (by simp)
  | n + 3, hd => exact absurd (show (none : Option SerialDef) = some d from hd) (by simp)

/-- Two classes of the same name: what is dumped with the first is loaded with the second. -/
theorem c100_example :
    let qs : List RegisterCall := [⟨1, 1, some "Point", none, none⟩, ⟨2, 2, some "Point", none, none⟩]
    (dumpSpecs (fun _ => "0") (registerNodes .empty qs) (.node 1 0 (.leaf .nil) .nil)).bind (loadSpecs (fun _ => 0) (registerNodes .empty qs)) = .ok (.node 2 0 (.leaf .nil) .nil) := by
  decide +kernel

end LitData.Props
