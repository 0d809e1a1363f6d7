import Verif.Model.Serializers

/-! What leaves are, and when they can be stored: used to state properties of the serializers. -/

namespace LitData

/-- The kinds of leaves that are read back as they were written. One-dimensional arrays are told apart by
their dtype. -/
inductive Kind where
  | str | bool | int | float | pil | bytes
  | array1 (d : NumpyDType) | arrayN
  | tensor1 (d : TorchDType) | tensorN
  | pickled
  deriving DecidableEq

/-- The kind of a leaf; none for JPEG images, videos and TIFF files (which are decoded when read), for
`bfloat16` tensors (refused), and for lists. -/
def leafKind (env : SerEnv) : LeafTree → Option Kind
  | .leaf (.str s) =>
    if (env.files s).isNone then some .str
    else if env.isVideo s || env.isTiff s then none else some .pickled
  | .leaf (.bool _) => some .bool
  | .leaf (.int _) => some .int
  | .leaf (.float _) => some .float
  | .leaf (.bytes _) => some .bytes
  | .leaf (.pil ..) => some .pil
  | .leaf (.jpeg _) => none
  | .leaf (.ndarray _ [] _) => some .pickled
  | .leaf (.ndarray d [_] _) => some (.array1 d)
  | .leaf (.ndarray _ (_ :: _ :: _) _) => some .arrayN
  | .leaf (.tensor d shape _) =>
    if d = .bfloat16 then none
    else match shape with
      | [_] => some (.tensor1 d)
      | _ => some .tensorN
  | .leaf (.other _) => some .pickled
  | .node _ _ => none

/-- Sizes fit their fields, an image has no palette, and what is pickled can be unpickled. -/
def LeafFits (env : SerEnv) : LeafTree → Prop
  | .leaf (.str s) => (env.files s).isNone ∨ env.unpickle (env.pickle (.leaf (.str s))) = .ok (.leaf (.str s))
  | .leaf (.int i) => -(2 ^ 63 : Int) ≤ i ∧ i < 2 ^ 63
  | .leaf (.pil mode w h _ palette) => w < 2 ^ 32 ∧ h < 2 ^ 32 ∧ (utf8 mode).length < 2 ^ 32 ∧ palette = none
  | .leaf (.ndarray d shape data) => data.length = d.size * prod shape ∧ shape.length < 2 ^ 32 ∧
      (∀ n ∈ shape, n < 2 ^ 32) ∧
      (shape = [] → env.unpickle (env.pickle (.leaf (.ndarray d shape data))) = .ok (.leaf (.ndarray d shape data)))
  | .leaf (.tensor d shape data) => data.length = d.size * prod shape ∧ shape.length < 2 ^ 32 ∧
      (∀ n ∈ shape, n < 2 ^ 32)
  | .leaf (.other i) => env.unpickle (env.pickle (.leaf (.other i))) = .ok (.leaf (.other i))
  | _ => True

end LitData
