import Verif.Model.Parse

/-!
# `Node::parse` on a bounded stack

The parser with a limit on the number of nested calls; `none` is a stack overflow, which ends the process.
-/

namespace Abe

/-- `Node.combine` when the parsing of an operand may exhaust the stack; the right operand is parsed only if the left one was, /repo/src/core/msp.rs:336-340 and
396-406. -/
def Node.combineIn (op : Char) (l r : Option (Res ParsingError Node)) : Option (Res ParsingError Node) :=
  if op = '&' ∨ op = '|' then
    match l with
    | some (.ok _) =>
      match l, r with
      | some l, some r => some (Node.combine op l r)
      | _, _ => none
    | l => l
  else some (.err (.unsupportedOperator op))

/-- `Node::parse`, /repo/src/core/msp.rs:290-408, with room for `k` nested calls. -/
def Node.parseIn (t : Target) : Nat → List Char → Option (Res ParsingError Node)
  | 0, _ => none
  | k + 1, s =>
    if s.isEmpty || s.any (fun c => !authorizedChars.contains c) then
      some (.err (.unexpectedCharacter ("formula must contain only digits, parenthesis and operators & and |. Given formula: " ++ String.ofList s)))
    else
      let digits := (s.filter (· ≠ ' ')).takeWhile Char.isDigit
      if digits ≠ [] then
        match parseU32 digits with
        | none => some (.err .parseIntError)
        | some n =>
          match (s.filter (· ≠ ' ')).drop digits.length with
          | [] => some (.ok (.leaf n))
          | op :: rest => Node.combineIn op (some (.ok (.leaf n))) (Node.parseIn t k rest)
      else
        match s.filter (· ≠ ' ') with
        | [] => some (.err (.unexpectedEnd "no further character while getting first char in: "))
        | c :: rest =>
          if c ≠ '(' then some (.err (.unexpectedCharacter "opening parenthesis expected"))
          else if !rest.contains ')' then some (.err (.unexpectedCharacter "closing parenthesis expected"))
          else
            match closingIndex t 0 0 rest with
            | .err e => some (.err e)
            | .panic => some .panic
            | .ok i =>
              match rest.drop i with
              | [] => some .panic
              | _ :: after =>
                match after with
                | [] => Node.parseIn t k (rest.take i)
                | op :: rest' => Node.combineIn op (Node.parseIn t k (rest.take i)) (Node.parseIn t k rest')

end Abe
