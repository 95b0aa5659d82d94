import Verif.Model.Msp

/-!
# `Node::parse`

Strings are lists of characters.  The byte offsets used by the code coincide with character offsets, because every string that
reaches a slice has only authorised (ASCII) characters.  The depth of the recursion is modelled in `ParseStack`.
-/

namespace Abe

/-- The authorised characters, /repo/src/core/msp.rs:292-294. -/
def authorizedChars : List Char := [' ', '(', ')', '&', '|', '0', '1', '2', '3', '4', '5', '6', '7', '8', '9']

/-- Value of a decimal digit.  `i32::parse`, /repo/src/core/msp.rs:320. -/
def digitVal (c : Char) : Nat := c.toNat - '0'.toNat

/-- The number denoted by a string of decimal digits.  `i32::parse`, /repo/src/core/msp.rs:320. -/
def digitsVal (ds : List Char) : Nat := ds.foldl (fun acc c => acc * 10 + digitVal c) 0

/-- `integer_str.parse::<u32>()` on a non-empty string of digits (standard library): an error exactly on overflow,
/repo/src/core/msp.rs:320. -/
def parseU32 (ds : List Char) : Option UInt32 := if digitsVal ds < 2 ^ 32 then some (digitsVal ds).toUInt32 else none

/-- The loop looking for the closing parenthesis, /repo/src/core/msp.rs:366-379.  `count` is an `i32`: its increment panics
or wraps on overflow.  The answer is 0 when the loop ends without `break` (line 367). -/
def closingIndex (t : Target) : Int → Nat → List Char → Res ParsingError Nat
  | _, _, [] => .ok 0
  | count, i, c :: cs => do
    let count ←
      if c = '(' then
        if count = 2 ^ 31 - 1 then (if t.checked then .panic else .ok (-2 ^ 31)) else .ok (count + 1)
      else if c = ')' then .ok (count - 1) else (.ok count : Res ParsingError Int)
    if count < 0 then .ok i else closingIndex t count (i + 1) cs

/-- Build a binary node from an operator character, /repo/src/core/msp.rs:336-340 and 396-406; the operands are parsed only
once the operator is known (left one first). -/
def Node.combine (op : Char) (l r : Res ParsingError Node) : Res ParsingError Node :=
  if op = '&' then do
    let a ← l
    let b ← r
    .ok (.and a b)
  else if op = '|' then do
    let a ← l
    let b ← r
    .ok (.or a b)
  else .err (.unsupportedOperator op)

/-- `Node::parse`, /repo/src/core/msp.rs:290-408.  The test on `captures_len` (line 307) is constant and left out, as is
`find_at` failing after `is_match` succeeded (line 312). -/
def Node.parse (t : Target) (s : List Char) : Res ParsingError Node :=
  if s.isEmpty || s.any (fun c => !authorizedChars.contains c) then
    .err (.unexpectedCharacter ("formula must contain only digits, parenthesis and operators & and |. Given formula: " ++ String.ofList s))
  else
    let digits := (s.filter (· ≠ ' ')).takeWhile Char.isDigit
    if digits ≠ [] then
      match parseU32 digits with
      | none => .err .parseIntError
      | some n =>
        match _h : (s.filter (· ≠ ' ')).drop digits.length with
        | [] => .ok (.leaf n)
        | op :: rest => Node.combine op (.ok (.leaf n)) (Node.parse t rest)
    else
      match _h : s.filter (· ≠ ' ') with
      | [] => .err (.unexpectedEnd "no further character while getting first char in: ")
      | c :: rest =>
        if c ≠ '(' then .err (.unexpectedCharacter "opening parenthesis expected")
        else if !rest.contains ')' then .err (.unexpectedCharacter "closing parenthesis expected")
        else
          match closingIndex t 0 0 rest with
          | .err e => .err e
          | .panic => .panic
          | .ok i =>
            match _h2 : rest.drop i with
            | [] => .panic
            | _ :: after =>
              match _h3 : after with
              | [] => Node.parse t (rest.take i)
              | op :: rest' => Node.combine op (Node.parse t (rest.take i)) (Node.parse t rest')
termination_by s.length
decreasing_by
  all_goals
    have h1 : (s.filter (· ≠ ' ')).length ≤ s.length := List.length_filter_le ..
    have h2 := congrArg List.length _h
  · rw [List.length_drop, List.length_cons] at h2
    omega
  · rw [List.length_cons] at h2
    rw [List.length_take]
    omega
  · rw [List.length_cons] at h2
    rw [List.length_take]
    omega
  · have h3 := congrArg List.length _h2
    rw [List.length_cons] at h2
    rw [List.length_drop, List.length_cons, List.length_cons] at h3
    omega

/-- `MonotoneSpanProgram::parse`, /repo/src/core/msp.rs:151-159.  Its bound `Self: From<MonotoneSpanProgram<i32>>` holds only for `i32`
entries, where the last conversion is the identity. -/
def Msp.parse (t : Target) (s : List Char) : Out (Msp Int) := do
  let n ← (Node.parse t s).mapErr .parsingError
  n.toMsp

/-- `impl Display for Node`, /repo/src/core/msp.rs:203-212; an integer is displayed in base ten (standard library). -/
def Node.display : Node → List Char
  | .and l r => "AND( ".toList ++ (l.display ++ (", ".toList ++ (r.display ++ " )".toList)))
  | .or l r => "OR( ".toList ++ (l.display ++ (", ".toList ++ (r.display ++ " )".toList)))
  | .leaf v => "LEAF(".toList ++ (Nat.toDigits 10 v.toNat ++ ")".toList)

end Abe
