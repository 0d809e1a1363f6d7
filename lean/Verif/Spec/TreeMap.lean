import Verif.Lemmas.Pytree
import Verif.Model.TreeMap

/-! What functions over nested samples should do, by the positions of leaves and by key paths. -/

namespace LitData.Spec
open LitData

/-- The part of a sample at a position: which child, which child of it, and so on. -/
def subtreeAt {α : Type} : Tree α → List Nat → Option (Tree α)
  | t, [] => some t
  | .leaf _, _ :: _ => none
  | .node _ cs, i :: p => match cs[i]? with
    | none => none
    | some c => subtreeAt c p

/-- `x` is a leaf of `t` at position `p`: it counts as a leaf, and nothing above does. -/
def IsLeafAt {α : Type} (isL : Tree α → Bool) (t : Tree α) (p : List Nat) (x : Tree α) : Prop :=
  subtreeAt t p = some x ∧ isL x = true ∧ ∀ q y, q <+: p → q ≠ p → subtreeAt t q = some y → isL y = false

/-- Containers of one type: all dictionaries are, named tuples if their classes are the same. -/
def SameType : Head → Head → Prop
  | .tuple, .tuple | .list, .list | .deque _, .deque _ => True
  | .named c a, .named c' a' => c = c' ∧ a = a'
  | .dict _, .dict _ | .dict _, .odict _ | .dict _, .ddict _ _ | .odict _, .dict _ | .odict _, .odict _ | .odict _, .ddict _ _
  | .ddict _ _, .dict _ | .ddict _ _, .odict _ | .ddict _ _, .ddict _ _ => True
  | _, _ => False

mutual
/-- A sample that can exist in Python, with the fields of its named tuples. -/
def TreeOk {α : Type} (fields : String → List String) : Tree α → Prop
  | .leaf _ => True
  | .node h cs => h.Fits cs.length ∧ (∀ c a, h = .named c a → (fields c).Nodup ∧ (fields c).length = a) ∧ TreesOk fields cs

/-- All of them. -/
def TreesOk {α : Type} (fields : String → List String) : List (Tree α) → Prop
  | [] => True
  | c :: cs => TreeOk fields c ∧ TreesOk fields cs
end

mutual
/-- `t'` has the containers of `t` down to the leaves of `t`. -/
def SameShape {α : Type} (isL : Tree α → Bool) : Tree α → Tree α → Prop
  | .leaf _, _ => True
  | .node h cs, t' => isL (.node h cs) = true ∨ ∃ cs', t' = .node h cs' ∧ SameShapes isL cs cs'

/-- One by one. -/
def SameShapes {α : Type} (isL : Tree α → Bool) : List (Tree α) → List (Tree α) → Prop
  | [], cs' => cs' = []
  | c :: cs, cs' => ∃ d ds, cs' = d :: ds ∧ SameShape isL c d ∧ SameShapes isL cs ds
end

mutual
/-- `r` can go along with `t`: down to the leaves of `t` it has containers of the same types and sizes with the same keys, in any order, and no list of JPEG
images, which counts as one image. -/
def Covers {α : Type} (isJpeg : α → Bool) (isL : Tree α → Bool) (fields : String → List String) : Tree α → Tree α → Prop
  | .leaf _, _ => True
  | .node h cs, r => isL (.node h cs) = true ∨ ∃ h' ts, r = .node h' ts ∧ isJpegArray isJpeg h' ts = false ∧ SameType h h' ∧ ts.length = cs.length ∧
    CoversList isJpeg isL fields (entriesOf fields h cs.length) cs r

/-- Each child has a counterpart under its key. -/
def CoversList {α : Type} (isJpeg : α → Bool) (isL : Tree α → Bool) (fields : String → List String) : List KeyEntry → List (Tree α) → Tree α → Prop
  | e :: es, c :: cs, r => (∃ u, e.get fields r = .ok u ∧ Covers isJpeg isL fields c u) ∧ CoversList isJpeg isL fields es cs r
  | _, _, _ => True
end

mutual
/-- The leaves are replaced by their images. -/
def mapTree {α : Type} (isL : Tree α → Bool) (g : Tree α → Tree α) : Tree α → Tree α
  | .leaf a => g (.leaf a)
  | .node h cs => if isL (.node h cs) then g (.node h cs) else .node h (mapTrees isL g cs)

/-- In all of them. -/
def mapTrees {α : Type} (isL : Tree α → Bool) (g : Tree α → Tree α) : List (Tree α) → List (Tree α)
  | [] => []
  | c :: cs => mapTree isL g c :: mapTrees isL g cs
end

mutual
/-- The containers of `t` that hold its leaves do not turn into leaves when these are replaced by `g`. -/
def StaysOpen {α : Type} (isL : Tree α → Bool) (g : Tree α → Tree α) : Tree α → Prop
  | .leaf _ => True
  | .node h cs => isL (.node h cs) = true ∨ (isL (.node h (mapTrees isL g cs)) = false ∧ StayOpen isL g cs)

/-- In all of them. -/
def StayOpen {α : Type} (isL : Tree α → Bool) (g : Tree α → Tree α) : List (Tree α) → Prop
  | [] => True
  | c :: cs => StaysOpen isL g c ∧ StayOpen isL g cs
end

/-- An entry of a key path up to the equality of Python. -/
def entryNorm : KeyEntry → KeyEntry
  | .map k => .map k.norm
  | e => e

end LitData.Spec
