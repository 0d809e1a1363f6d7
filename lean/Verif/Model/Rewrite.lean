import Verif.Model.Sample

/-!
Samples that were read and are written again.
Models what `src/litdata/streaming/serializers.py` lines 428-455 (`NumericSerializer`, `IntegerSerializer`, `FloatSerializer`) give back: NumPy
scalars, not Python numbers. `Model/Serializers.lean` does not tell them apart; here they are values of their own.

Simplified: a serializer applied to a NumPy scalar that it does not accept raises, where NumPy might convert the scalar.
-/

namespace LitData

/-- A leaf of a sample: one that the user's code made, an `np.int64` or an `np.float64`
(`streaming/serializers.py:438-439`: `np.frombuffer(data, self.dtype)[0]`). -/
inductive PyVal where
  | own (t : LeafTree)
  | npInt (i : Int)
  | npFloat (bits : UInt64)

/-- A serializer that knows nothing about NumPy scalars (`streaming/serializers.py:60-425`, 458-512). -/
def ownSer (s : Serializer LeafTree) : Serializer PyVal where
  canSerialize
    | .own t => s.canSerialize t
    | _ => false
  serialize
    | .own t => s.serialize t
    | _ => .error .typeError
  size := s.size
  deserialize f b := (s.deserialize f b).map .own

/-- `IntegerSerializer` (`streaming/serializers.py:428-447`): `isinstance(np.int64(3), int)` is false, but `np.int64` takes an `np.int64`. -/
def npIntSer : Serializer PyVal where
  canSerialize
    | .own t => intSer.canSerialize t
    | _ => false
  serialize
    | .own t => intSer.serialize t
    | .npInt i => (int64Bytes i).map fun b => (b, none)
    | .npFloat _ => .error .typeError
  size := intSer.size
  deserialize _ b := (first8 b).map fun b => .npInt (int64Of b)

/-- `FloatSerializer` (`streaming/serializers.py:428-439`, 450-455): `np.float64` is a subclass of `float`. -/
def npFloatSer : Serializer PyVal where
  canSerialize
    | .own t => floatSer.canSerialize t
    | .npFloat _ => true
    | .npInt _ => false
  serialize
    | .own t => floatSer.serialize t
    | .npFloat w => .ok (leBytes 8 w.toNat, none)
    | .npInt _ => .error .typeError
  size := floatSer.size
  deserialize _ b := (first8 b).map fun b => .npFloat (UInt64.ofNat (leNat b))

/-- `PickleSerializer` (`streaming/serializers.py:360-370`); pickle itself is a parameter. -/
def npPickleSer (env : SerEnv) (pickle : PyVal → Bytes) (unpickle : Bytes → Py PyVal) : Serializer PyVal where
  canSerialize _ := true
  serialize
    | .own t => (pickleSer env).serialize t
    | v => .ok (pickle v, none)
  size := none
  deserialize _ b := unpickle b

/-- `_SERIALIZERS` (`streaming/serializers.py:515-534`), in order. -/
def npBuiltins (env : SerEnv) (pickle : PyVal → Bytes) (unpickle : Bytes → Py PyVal) : Table PyVal :=
  [("str", ownSer (strSer env)), ("bool", ownSer boolSer), ("int", npIntSer), ("float", npFloatSer), ("video", ownSer (videoSer env)),
   ("tifffile", ownSer (tiffSer env)), ("file", ownSer (fileSer env)), ("pil", ownSer pilSer), ("jpeg", ownSer (jpegSer env)),
   ("jpeg_array", ownSer (jpegArraySer env)), ("bytes", ownSer bytesSer), ("no_header_numpy", ownSer noHeaderNumpySer),
   ("numpy", ownSer numpySer), ("no_header_tensor", ownSer noHeaderTensorSer), ("tensor", ownSer tensorSer),
   ("pickle", npPickleSer env pickle unpickle)]

end LitData
