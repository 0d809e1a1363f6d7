import Verif.Model.Resolver
import Verif.Model.Serializers

/-!
How the machines of a run agree on the input and the output directory. Models `src/litdata/utilities/broadcast.py` lines 107-153 (`_ImmutableDistributedMap.set_and_get`, `broadcast_object`) and its two
uses in `src/litdata/processing/data_processor.py` lines 1083-1088.

The pickle of a `Dir` (protocol 0) is given byte by byte, for a path and a URL that are not the same object (which pickle would write once), and texts without surrogates. The service is not part of the
repository: as `broadcast.py:110-115` says, the first process to set a key defines its value. The public and the private address lead to the same service. The token (`broadcast.py:156-168`) and the
pause of three seconds are left out.
-/

namespace LitData

/-- The bytes of a text of ASCII characters. -/
def asciiBytes (s : String) : Bytes := s.toList.map fun c => UInt8.ofNat c.toNat

/-- A hexadecimal digit, as pickle writes it (for `broadcast.py:126`). -/
def hexDigit (n : Nat) : UInt8 := UInt8.ofNat (if n < 10 then 48 + n else 87 + n)

/-- The value of a hexadecimal digit (for `broadcast.py:141`). -/
def hexValue (b : UInt8) : Option Nat :=
  let n := b.toNat
  if 48 ≤ n ∧ n ≤ 57 then some (n - 48) else if 97 ≤ n ∧ n ≤ 102 then some (n - 87) else if 65 ≤ n ∧ n ≤ 70 then some (n - 55) else none

/-- `k` hexadecimal digits of a number. -/
def hexDigits : Nat → Nat → Bytes
  | 0, _ => []
  | k + 1, n => hexDigit (n / 16 ^ k % 16) :: hexDigits k n

/-- The number that hexadecimal digits stand for. -/
def hexNumber : Nat → Bytes → Option Nat
  | acc, [] => some acc
  | acc, b :: l => (hexValue b).bind fun d => hexNumber (acc * 16 + d) l

/-- A character in a pickle of protocol 0 (`broadcast.py:126`, `raw-unicode-escape`): characters up to U+00FF are one byte, except for the backslash and four control characters. -/
def escapeChar (c : Char) : Bytes :=
  let n := c.toNat
  if 65536 ≤ n then 92 :: 85 :: hexDigits 8 n
  else if 256 ≤ n ∨ n = 92 ∨ n = 0 ∨ n = 10 ∨ n = 13 ∨ n = 26 then 92 :: 117 :: hexDigits 4 n
  else [UInt8.ofNat n]

/-- The character of a number. -/
def charOf (n : Nat) : Option Char := if n.isValidChar then some (Char.ofNat n) else none

/-- The text of a line of a pickle (`broadcast.py:141`, decoding `raw-unicode-escape`). -/
def unescapeText : Bytes → Option PathStr
  | [] => some []
  | 92 :: 85 :: a :: b :: c :: d :: e :: f :: g :: h :: l => do
    let n ← hexNumber 0 [a, b, c, d, e, f, g, h]
    let x ← charOf n
    let r ← unescapeText l
    return x :: r
  | 92 :: 117 :: a :: b :: c :: d :: l => do
    let n ← hexNumber 0 [a, b, c, d]
    let x ← charOf n
    let r ← unescapeText l
    return x :: r
  | b :: l => do
    let r ← unescapeText l
    return Char.ofNat b.toNat :: r

/-- The bytes up to the first line break, and those behind it. -/
def takeLine : Bytes → Option (Bytes × Bytes)
  | [] => none
  | b :: l => if b = 10 then some ([], l) else (takeLine l).map fun r => (b :: r.1, r.2)

/-- A path or URL in the pickle, with the number under which pickle remembers it (for `broadcast.py:126`). -/
def pickleField (memo : Nat) : Option PathStr → Bytes
  | none => asciiBytes "N"
  | some s => asciiBytes "V" ++ s.flatMap escapeChar ++ asciiBytes "\np" ++ [UInt8.ofNat (48 + memo)] ++ asciiBytes "\n"

/-- The beginning of the pickle of a `Dir`, up to its first field. -/
def pickleHead : Bytes :=
  asciiBytes "ccopy_reg\n_reconstructor\np0\n(clitdata.streaming.resolver\nDir\np1\nc__builtin__\nobject\np2\nNtp3\nRp4\n(dp5\nVpath\np6\n"

/-- `pickle.dumps(value, 0)` of a `Dir` (`broadcast.py:126`). -/
def pickleDir (d : UserDir) : Bytes :=
  let memo := if d.path.isSome then 8 else 7
  pickleHead ++ pickleField 7 d.path ++ asciiBytes "sVurl\np" ++ [UInt8.ofNat (48 + memo)] ++ asciiBytes "\n" ++ pickleField (memo + 1) d.url ++ asciiBytes "sb."

/-- A field of the pickle, and what follows. -/
def unpickleField : Bytes → Option (Option PathStr × Bytes)
  | 78 :: l => some (none, l)
  | 86 :: l => do
    let (text, l) ← takeLine l
    let (_, l) ← takeLine l
    let s ← unescapeText text
    return (some s, l)
  | _ => none

/-- `pickle.loads` of the pickle of a `Dir` (`broadcast.py:141`). -/
def unpickleDir (b : Bytes) : Option UserDir :=
  if pickleHead.isPrefixOf b then do
    let (path, l) ← unpickleField (b.drop pickleHead.length)
    if (asciiBytes "sVurl\n").isPrefixOf l then
      let (_, l) ← takeLine (l.drop 6)
      let (url, _) ← unpickleField l
      return ⟨path, url⟩
    else none
  else none

/-- The value in the request: `pickle.dumps(value, 0).decode()` (`broadcast.py:126`); a `UnicodeDecodeError` is a `ValueError`. -/
def payload (d : UserDir) : Py String := unUtf8 (pickleDir d)

/-- The value of a reply: `pickle.loads(bytes(value, "utf-8"))` (`broadcast.py:138-141`). -/
def unpayload (t : String) : Py UserDir :=
  match unpickleDir (utf8 t) with
  | some d => .ok d
  | none => .error .exception

/-- The values that the service holds. -/
abbrev Service := List (PathStr × String)

/-- The service gets a value for a key (`broadcast.py:110-115`): the first one stays. It gives back the value of the key. -/
def Service.set (s : Service) (k : PathStr) (t : String) : Service × String :=
  match s.lookup k with
  | some t' => (s, t')
  | none => ((k, t) :: s, t)

/-- Where a call of `broadcast_object` is: before a request to the public address, after it failed, or at its end. -/
inductive CastSt where
  | asking
  | askingPrivate
  | done (d : UserDir)
  | failed (e : Err)

/-- The service and the calls of all processes. -/
structure CastState (ι : Type) where
  service : Service
  calls : ι → CastSt

/-- Another state of one call. -/
def CastState.put {ι : Type} [DecidableEq ι] (s : CastState ι) (i : ι) (service : Service) (c : CastSt) : CastState ι :=
  ⟨service, fun j => if j = i then c else s.calls j⟩

/-- What can happen to a call (`broadcast.py:125-153`): the value cannot be sent; the public address does not answer, before or after the service got the value, and the private one is tried; the service
answers with the value of the key, or with none, and the call asks again; there is an error. -/
inductive CastStep {ι : Type} [DecidableEq ι] (key : ι → PathStr) (dir : ι → UserDir) : CastState ι → CastState ι → Prop
  | unsendable (s : CastState ι) (i : ι) (e : Err) : s.calls i = .asking → payload (dir i) = .error e → CastStep key dir s (s.put i s.service (.failed e))
  | noConnection (s : CastState ι) (i : ι) (t : String) : s.calls i = .asking → payload (dir i) = .ok t → CastStep key dir s (s.put i s.service .askingPrivate)
  | lostReply (s : CastState ι) (i : ι) (t : String) : s.calls i = .asking → payload (dir i) = .ok t → CastStep key dir s (s.put i (s.service.set (key i) t).1 .askingPrivate)
  | answer (s : CastState ι) (i : ι) (t : String) : s.calls i = .asking ∨ s.calls i = .askingPrivate → payload (dir i) = .ok t →
      CastStep key dir s (s.put i (s.service.set (key i) t).1 (match unpayload (s.service.set (key i) t).2 with | .ok d => .done d | .error e => .failed e))
  | noValue (s : CastState ι) (i : ι) (t : String) : s.calls i = .asking ∨ s.calls i = .askingPrivate → payload (dir i) = .ok t → CastStep key dir s (s.put i s.service .asking)
  | error (s : CastState ι) (i : ι) (t : String) (e : Err) : s.calls i = .asking ∨ s.calls i = .askingPrivate → payload (dir i) = .ok t → CastStep key dir s (s.put i s.service (.failed e))

/-- The states that are reached from the beginning, when the service holds nothing. -/
inductive CastReach {ι : Type} [DecidableEq ι] (key : ι → PathStr) (dir : ι → UserDir) : CastState ι → Prop
  | start : CastReach key dir ⟨[], fun _ => .asking⟩
  | step {s s' : CastState ι} : CastReach key dir s → CastStep key dir s s' → CastReach key dir s'

/-- The calls in an application: the number of the `map` or `optimize`, the machine, and which of the two directories. -/
structure CastId where
  run : Nat
  node : Nat
  output : Bool
  deriving DecidableEq

/-- The key of a call (`data_processor.py:1084`, 1088). -/
def CastId.key (i : CastId) : PathStr := if i.output then "output_dir".toList else "input_dir".toList

/-- `broadcast_object` without an application (`broadcast.py:146`, 153). -/
def castLocal (dir : UserDir) : UserDir := dir

end LitData
