import Verif.Model.Opening

/-! Which settings fit the index of a dataset, without the functions of the model that check them. -/

namespace LitData.Spec
open LitData

/-- A data format is known: it is the name of a serializer, or `a:b` where `a` or `b` is one. -/
def KnownFormat (keys : List String) (f : String) : Prop :=
  (':' ∉ f.toList ∧ f ∈ keys) ∨ ∃ a b : String, ':' ∉ a.toList ∧ ':' ∉ b.toList ∧ f.toList = a.toList ++ ':' :: b.toList ∧ (a ∈ keys ∨ b ∈ keys)

/-- The serializer that a data format names: of `a:b` the one called `b`, if there is one, else the one called `a`. -/
def Names (keys : List String) (f key : String) : Prop :=
  (':' ∉ f.toList ∧ key = f) ∨ ∃ a b : String, ':' ∉ a.toList ∧ ':' ∉ b.toList ∧ f.toList = a.toList ++ ':' :: b.toList ∧
    ((b ∈ keys ∧ key = b) ∨ (b ∉ keys ∧ key = a))

/-- The data format of tokens of `size` bytes: `no_header_tensor:i` or `no_header_numpy:i` with the number of a dtype. -/
def TokenFormat (f : String) (size : Nat) : Prop :=
  ∃ digits : List Char, digits ≠ [] ∧ (∀ c ∈ digits, c.isDigit = true) ∧
    ((f.toList = "no_header_tensor:".toList ++ digits ∧ ∃ d, torchTable[Nat.ofDigitChars 10 digits 0]? = some d ∧ d.size = size) ∨
     (f.toList = "no_header_numpy:".toList ++ digits ∧ ∃ d, numpyTable[Nat.ofDigitChars 10 digits 0]? = some d ∧ d.size = size))

/-- The item loader is the one that the index names; for an old index without a name, single tensors without a header need a `TokensLoader`. -/
def LoaderNamed (c : IndexConfig) (l : LoaderArg) : Prop :=
  (∃ n, c.itemLoader = some n ∧ l.className = n) ∨
    (c.itemLoader = none ∧ ∀ f, c.dataFormat = some [f] → "no_header_tensor".toList <+: f.toList → l.tokens ≠ none)

/-- The settings fit: the item loader, the serializers, the structure of the samples, the compression, and for tokens the block size, the data format and the
numbers of tokens of the chunks that are used. -/
structure Fits {V : Type} (penv : PyEnv) (available : List String) (c : IndexConfig) (l : LoaderArg) (sers : Table V) (sel : List ChunkInfo) : Prop where
  named : LoaderNamed c l
  formats : ∃ fs, c.dataFormat = some fs ∧ ∀ f ∈ fs, KnownFormat (sers.map (·.1)) f
  spec : ∀ t, c.dataSpec = some t → ∃ s, treespecLoads penv t = .ok s
  compression : ∀ n, c.compression = some n → n = "" ∨ n ∈ available
  tokens : ∀ b, l.tokens = some b → (∃ n, b = some n ∧ 0 < n) ∧ (∃ f fs sz, c.dataFormat = some (f :: fs) ∧ TokenFormat f sz) ∧
    sel ≠ [] ∧ ∀ x ∈ sel, x.dim ≠ none

/-- The number of samples in a chunk: of blocks, if it holds tokens. -/
def samplesIn (l : LoaderArg) (c : ChunkInfo) : Nat :=
  match l.tokens with
  | none => c.chunkSize
  | some b => c.dim.getD 0 / b.getD 0

/-- Chunks with so many samples lie one after the other, from sample `b` on; each with its region. -/
def layout : Nat → List Nat → List (Nat × Nat) → List Interval
  | b, n :: ns, r :: rs => ⟨b, b + r.1, b + r.2, b + n⟩ :: layout (b + n) ns rs
  | _, _, _ => []

end LitData.Spec
