import Verif.Model.Basic

/-!
Byte sizes given as text.
Models `src/litdata/utilities/format.py` lines 17-38 (`_FORMAT_TO_RATIO`, `_convert_bytes_to_int`), with Python's
`float(str)`, `float * int` and `int(float)`.

Simplified: only ASCII characters count as white space, digits and letters (Python also knows other digits and
spaces); floats have no smallest exponent, which `int` cannot tell since everything below 1 becomes 0.
-/

namespace LitData

/-- ASCII white space, as stripped by `str.strip` and `float`. -/
def isPySpace (c : Char) : Bool :=
  c == ' ' || c == '\t' || c == '\n' || c == '\r' || c == '\x0b' || c == '\x0c' || c == '\x1c' || c == '\x1d' || c == '\x1e' || c == '\x1f'

/-- `str.strip`. -/
def pyStrip (s : List Char) : List Char := ((s.dropWhile isPySpace).reverse.dropWhile isPySpace).reverse

/-- `str.lower`. -/
def pyLower (s : List Char) : List Char := s.map Char.toLower

/-- A value of a float literal: `digits * 10 ^ exp`, infinity, or not a number. -/
inductive FloatLit where
  | fin (neg : Bool) (digits : Nat) (exp : Int)
  | inf (neg : Bool)
  | nan
  deriving DecidableEq, Repr

/-- The leading digits. -/
def spanDigits : List Char → List Char × List Char
  | [] => ([], [])
  | c :: cs => if c.isDigit then (c :: (spanDigits cs).1, (spanDigits cs).2) else ([], c :: cs)

/-- Every underscore is between two digits. -/
def underscoresOk : Bool → List Char → Bool
  | _, [] => true
  | prev, '_' :: cs => prev && (match cs with | c :: _ => c.isDigit | [] => false) && underscoresOk false cs
  | _, c :: cs => underscoresOk c.isDigit cs

/-- The exponent of a float literal: empty, or `e`, a sign, digits. -/
def parseExp : List Char → Option Int
  | [] => some 0
  | c :: cs =>
    if c = 'e' ∨ c = 'E' then
      let (neg, cs) := match cs with
        | '-' :: r => (true, r)
        | '+' :: r => (false, r)
        | r => (false, r)
      let (ds, rest) := spanDigits cs
      if ds = [] ∨ rest ≠ [] then none
      else some (if neg then -(Nat.ofDigitChars 10 ds 0 : Int) else (Nat.ofDigitChars 10 ds 0 : Int))
    else none

/-- The rest of a float literal after the digits `ip` before the point. -/
def parseTail (neg : Bool) (ip : List Char) : List Char → Option FloatLit
  | '.' :: rest =>
    let (fp, rest) := spanDigits rest
    if ip = [] ∧ fp = [] then none
    else (parseExp rest).map fun e => .fin neg (Nat.ofDigitChars 10 (ip ++ fp) 0) (e - fp.length)
  | rest => if ip = [] then none else (parseExp rest).map fun e => .fin neg (Nat.ofDigitChars 10 ip 0) e

/-- A float literal without sign. -/
def parseUnsigned (neg : Bool) (s : List Char) : Option FloatLit :=
  if pyLower s = "inf".toList ∨ pyLower s = "infinity".toList then some (.inf neg)
  else if pyLower s = "nan".toList then some .nan
  else if underscoresOk false s then
    let s := s.filter (· != '_')
    parseTail neg (spanDigits s).1 (spanDigits s).2
  else none

/-- `float(s)`; `none` is `ValueError`. -/
def parseFloat (s : List Char) : Option FloatLit :=
  match pyStrip s with
  | '-' :: r => parseUnsigned true r
  | '+' :: r => parseUnsigned false r
  | r => parseUnsigned false r

/-- The fraction `num / den` divided by `2 ^ e`, as a fraction. -/
def scalePair (num den : Nat) (e : Int) : Nat × Nat := (num * 2 ^ (-e).toNat, den * 2 ^ e.toNat)

/-- Rounding to the nearest integer, ties to even. -/
def roundHalfEven (num den : Nat) : Nat :=
  let q := num / den
  let r := num % den
  if 2 * r < den then q else if den < 2 * r then q + 1 else if q % 2 = 0 then q else q + 1

/-- The exponent of the double next to `num / den`: the mantissa is to be between `2 ^ 52` and `2 ^ 53`. -/
def doubleExp (num den : Nat) : Int :=
  let k : Int := (Nat.log2 num : Int) - (Nat.log2 den : Int)
  let p := scalePair num den k
  if p.2 ≤ p.1 then k - 52 else k - 53

/-- The double next to `num / den`, as a mantissa and an exponent of two; `none` when it is infinite. -/
def toDouble (num den : Nat) : Option (Nat × Int) :=
  if num = 0 then some (0, 0)
  else
    let e := doubleExp num den
    let p := scalePair num den e
    let m := roundHalfEven p.1 p.2
    if (Nat.log2 m : Int) + e < 1024 then some (m, e) else none

/-- `float(digits * 10 ^ exp)`. -/
def literalDouble (digits : Nat) (exp : Int) : Option (Nat × Int) := toDouble (digits * 10 ^ exp.toNat) (10 ^ (-exp).toNat)

/-- A double times an integer that is a double itself. -/
def mulDouble (d : Nat × Int) (ratio : Nat) : Option (Nat × Int) := toDouble (d.1 * ratio * 2 ^ d.2.toNat) (2 ^ (-d.2).toNat)

/-- `int` of a double that is not negative. -/
def truncDouble (d : Nat × Int) : Nat := d.1 * 2 ^ d.2.toNat / 2 ^ (-d.2).toNat

/-- `int(float(text) * ratio)`; `int(inf)` is an `OverflowError`, `int(nan)` a `ValueError`. -/
def scaledInt (lit : FloatLit) (ratio : Nat) : Py Int :=
  match lit with
  | .inf _ => .error .overflow
  | .nan => .error .valueError
  | .fin neg digits exp =>
    match (literalDouble digits exp).bind fun d => mulDouble d ratio with
    | none => .error .overflow
    | some d => .ok (if neg then -(truncDouble d : Int) else (truncDouble d : Int))

/-- `_FORMAT_TO_RATIO` (`utilities/format.py:17-22`). -/
def formatToRatio : List (String × Nat) := [("kb", 1000), ("mb", 1000 ^ 2), ("gb", 1000 ^ 3), ("tb", 1000 ^ 4)]

/-- The loop of `_convert_bytes_to_int` (`utilities/format.py:27-38`). -/
def convertLoop : List (String × Nat) → List Char → Py Int
  | [], _ => .error .valueError
  | (suffix, ratio) :: units, s =>
    let s := pyStrip (pyLower s)
    if suffix.toList.isSuffixOf (pyLower s) then
      match parseFloat (s.take (s.length - suffix.toList.length)) with
      | none => .error .valueError
      | some lit => scaledInt lit ratio
    else convertLoop units s

/-- `_convert_bytes_to_int` (`utilities/format.py:25-38`). -/
def convertBytes (s : String) : Py Int := convertLoop formatToRatio s.toList

end LitData
