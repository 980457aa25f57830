/-!
# A JSON parser

The specification for C55, independent of the code: RFC 8259 without white space and without escapes
in strings (a text with either is rejected, so acceptance by this parser implies acceptance by any
JSON parser).
-/

namespace Verif.Json

/-- A JSON value; a number is its text. -/
inductive J where
  | num (t : List Char)
  | str (t : List Char)
  | arr (l : List J)
  | obj (l : List (List Char × J))

/-- The characters of numbers. -/
def numChar (c : Char) : Bool :=
  c.isDigit || c == '+' || c == '-' || c == '.' || c == 'e' || c == 'E'

/-- The characters that may stand for themselves in a string. -/
def plain (c : Char) : Bool := c != '"' && c != '\\' && decide (32 ≤ c.toNat)

/-- `exp` of the grammar, or nothing. -/
def isExp : List Char → Bool
  | [] => true
  | c :: l =>
    if c == 'e' || c == 'E' then
      match l with
      | [] => false
      | d :: l' => if d == '+' || d == '-' then !l'.isEmpty && l'.all Char.isDigit else l.all Char.isDigit
    else false

/-- `frac`, or nothing, followed by `exp`, or nothing. -/
def isFrac : List Char → Bool
  | [] => true
  | c :: l =>
    if c == '.' then !(l.takeWhile Char.isDigit).isEmpty && isExp (l.dropWhile Char.isDigit)
    else isExp (c :: l)

/-- A number without sign: `0` or digits that do not begin with `0`, fraction, exponent. -/
def isUnsigned (l : List Char) : Bool :=
  match l.takeWhile Char.isDigit with
  | [] => false
  | c :: d => (c != '0' || d.isEmpty) && isFrac (l.dropWhile Char.isDigit)

/-- A JSON number. -/
def isNum : List Char → Bool
  | '-' :: l => isUnsigned l
  | l => isUnsigned l

/-- The rest of a string after the opening quote. -/
def parseStr : List Char → Option (List Char × List Char)
  | [] => none
  | c :: l =>
    if c == '"' then some ([], l)
    else if plain c then (parseStr l).map fun r => (c :: r.1, r.2) else none

mutual

/-- A value at the beginning of the text, and the rest. -/
def parse : Nat → List Char → Option (J × List Char)
  | 0, _ => none
  | n + 1, s =>
    match s with
    | '[' :: ']' :: r => some (.arr [], r)
    | '[' :: r => (parseElems n r).map fun q => (.arr q.1, q.2)
    | '{' :: '}' :: r => some (.obj [], r)
    | '{' :: r => (parseMembs n r).map fun q => (.obj q.1, q.2)
    | '"' :: r => (parseStr r).map fun q => (.str q.1, q.2)
    | s =>
      if isNum (s.takeWhile numChar) then some (.num (s.takeWhile numChar), s.dropWhile numChar)
      else none

/-- Elements up to the closing bracket. -/
def parseElems : Nat → List Char → Option (List J × List Char)
  | 0, _ => none
  | n + 1, s =>
    match parse n s with
    | some (v, ',' :: r) => (parseElems n r).map fun q => (v :: q.1, q.2)
    | some (v, ']' :: r) => some ([v], r)
    | _ => none

/-- Members up to the closing brace. -/
def parseMembs : Nat → List Char → Option (List (List Char × J) × List Char)
  | 0, _ => none
  | n + 1, s =>
    match s with
    | '"' :: r =>
      match parseStr r with
      | some (k, ':' :: r) =>
        match parse n r with
        | some (v, ',' :: r) => (parseMembs n r).map fun q => ((k, v) :: q.1, q.2)
        | some (v, '}' :: r) => some ([(k, v)], r)
        | _ => none
      | _ => none
    | _ => none

end

end Verif.Json
