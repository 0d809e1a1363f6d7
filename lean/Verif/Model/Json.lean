import Verif.Model.Basic

/-!
JSON as used for `index.json` and for tree structures: `json.dumps` with its default separators and the
part of `json.loads` that reads its output. Used by `utilities/_pytree.py:1366-1449` and
`streaming/writer.py:415-423`.

Simplified: numbers are integers; of the string escapes only those of `"` and `\` are produced, other
characters are written as they are (`ensure_ascii` is not modelled); `loads` accepts no other whitespace
than what `dumps` produces.
-/

namespace LitData

/-- A JSON value. An object is the list of its keys and the list of its values, in order. -/
inductive Json where
  | null
  | bool (b : Bool)
  | num (i : Int)
  | str (s : String)
  | arr (l : List Json)
  | obj (keys : List String) (vals : List Json)

/-- The escapes of a JSON string. -/
def escape : List Char → List Char
  | [] => []
  | '"' :: r => '\\' :: '"' :: escape r
  | '\\' :: r => '\\' :: '\\' :: escape r
  | c :: r => c :: escape r

/-- A JSON string literal. -/
def dumpStr (s : String) : List Char := '"' :: escape s.toList ++ ['"']

/-- A JSON integer literal. -/
def dumpInt : Int → List Char
  | .ofNat n => Nat.toDigits 10 n
  | .negSucc n => '-' :: Nat.toDigits 10 (n + 1)

mutual
/-- `json.dumps`. -/
def Json.dump : Json → List Char
  | .null => ['n', 'u', 'l', 'l']
  | .bool true => ['t', 'r', 'u', 'e']
  | .bool false => ['f', 'a', 'l', 's', 'e']
  | .num i => dumpInt i
  | .str s => dumpStr s
  | .arr l => dumpArr l
  | .obj ks vs => dumpObj ks vs

/-- An array. -/
def dumpArr : List Json → List Char
  | [] => ['[', ']']
  | j :: l => '[' :: (j.dump ++ dumpTail l)

/-- The elements of an array after the first. -/
def dumpTail : List Json → List Char
  | [] => [']']
  | j :: l => ',' :: ' ' :: (j.dump ++ dumpTail l)

/-- An object. -/
def dumpObj : List String → List Json → List Char
  | k :: ks, v :: vs => '{' :: (dumpStr k ++ ':' :: ' ' :: (v.dump ++ dumpFields ks vs))
  | _, _ => ['{', '}']

/-- The fields of an object after the first. -/
def dumpFields : List String → List Json → List Char
  | k :: ks, v :: vs => ',' :: ' ' :: (dumpStr k ++ ':' :: ' ' :: (v.dump ++ dumpFields ks vs))
  | _, _ => ['}']
end

/-- The rest of a string literal after the opening quote. -/
def loadStr : List Char → Option (List Char × List Char)
  | '"' :: r => some ([], r)
  | '\\' :: c :: r => match loadStr r with
    | some (s, r) => some (c :: s, r)
    | none => none
  | c :: r => match loadStr r with
    | some (s, r) => some (c :: s, r)
    | none => none
  | [] => none

/-- A run of digits. -/
def loadDigits (cs : List Char) : Option (Nat × List Char) :=
  if cs.takeWhile (·.isDigit) = [] then none
  else some (Nat.ofDigitChars 10 (cs.takeWhile (·.isDigit)) 0, cs.dropWhile (·.isDigit))

mutual
/-- `json.loads`, with a bound on the nesting depth. -/
def loadJson : Nat → List Char → Option (Json × List Char)
  | 0, _ => none
  | fuel + 1, cs =>
    match cs with
    | 'n' :: 'u' :: 'l' :: 'l' :: r => some (.null, r)
    | 't' :: 'r' :: 'u' :: 'e' :: r => some (.bool true, r)
    | 'f' :: 'a' :: 'l' :: 's' :: 'e' :: r => some (.bool false, r)
    | '"' :: r => (loadStr r).map fun x => (.str (String.ofList x.1), x.2)
    | '[' :: ']' :: r => some (.arr [], r)
    | '[' :: r => match loadJson fuel r with
      | none => none
      | some (j, r) => match loadTail fuel r with
        | none => none
        | some (l, r) => some (.arr (j :: l), r)
    | '{' :: '}' :: r => some (.obj [] [], r)
    | '{' :: '"' :: r => match loadStr r with
      | some (k, ':' :: ' ' :: r) => match loadJson fuel r with
        | none => none
        | some (v, r) => match loadFields fuel r with
          | none => none
          | some ((ks, vs), r) => some (.obj (String.ofList k :: ks) (v :: vs), r)
      | _ => none
    | '-' :: r => (loadDigits r).map fun x => (.num (-(x.1 : Int)), x.2)
    | _ => (loadDigits cs).map fun x => (.num x.1, x.2)

/-- The elements of an array after the first. -/
def loadTail : Nat → List Char → Option (List Json × List Char)
  | 0, _ => none
  | fuel + 1, cs =>
    match cs with
    | ']' :: r => some ([], r)
    | ',' :: ' ' :: r => match loadJson fuel r with
      | none => none
      | some (j, r) => match loadTail fuel r with
        | none => none
        | some (l, r) => some (j :: l, r)
    | _ => none

/-- The fields of an object after the first. -/
def loadFields : Nat → List Char → Option ((List String × List Json) × List Char)
  | 0, _ => none
  | fuel + 1, cs =>
    match cs with
    | '}' :: r => some (([], []), r)
    | ',' :: ' ' :: '"' :: r => match loadStr r with
      | some (k, ':' :: ' ' :: r) => match loadJson fuel r with
        | none => none
        | some (v, r) => match loadFields fuel r with
          | none => none
          | some ((ks, vs), r) => some ((String.ofList k :: ks, v :: vs), r)
      | _ => none
    | _ => none
end

/-- `json.loads` of a whole text; `None` stands for `JSONDecodeError` (a `ValueError`). -/
def loads (text : String) : Py Json :=
  match loadJson (text.toList.length + 1) text.toList with
  | some (j, []) => .ok j
  | _ => .error .valueError

/-- `json.dumps` of a whole value. -/
def dumps (j : Json) : String := String.ofList j.dump

end LitData
