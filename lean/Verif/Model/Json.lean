import Verif.Model.Lib
import Verif.Model.Parse

/-!
# JSON texts of policies

The crates `serde_json` and `abe_policy` are outside the repository; the rest of the model takes them as the parameter `Serde`.  Here
the JSON part of that parameter is written out: `serde_json` from RFC 8259 and its documentation, the derived formats of the types from
the texts kept in the repository (/repo/src/core/tests/policy.txt, /repo/src/core/tests/policy_tests.rs:90,
/repo/src/interfaces/hybrid_crypto/tests/fin_top_secret_user_key.json, /repo/src/interfaces/pyo3/tests/demo.py:6-47) and the parser of
attributes from its tests (/repo/src/core/tests/policy_tests.rs:28-57).

Simplification: `serde` reads values of unknown fields to any depth and with unpaired surrogates; these texts are refused here.
-/

namespace Abe

/-- A JSON value; a number is kept as it is written.
External (crate `serde_json`), used at /repo/src/interfaces/ffi/generate_gpsw_keys.rs:53 and /repo/src/interfaces/pyo3/generate_gpsw_keys.rs:24 and 131. -/
inductive Json where
  | null
  | bool (b : Bool)
  | num (text : List Char)
  | str (s : List Char)
  | arr (l : List Json)
  | obj (l : List (List Char × Json))

namespace Json

/-! ## Writing (`serde_json::to_vec`, compact form) -/

/-- Lower-case hexadecimal digit.
External (crate `serde_json`), used at /repo/src/interfaces/ffi/generate_gpsw_keys.rs:53 and /repo/src/interfaces/pyo3/generate_gpsw_keys.rs:24 and 131. -/
def hexDigit (n : Nat) : Char := if n < 10 then Char.ofNat (48 + n) else Char.ofNat (87 + n)

/-- One character inside a string: `serde_json` escapes the quote, the backslash and the control characters below U+0020.
External (crate `serde_json`), used at /repo/src/interfaces/ffi/generate_gpsw_keys.rs:53 and /repo/src/interfaces/pyo3/generate_gpsw_keys.rs:24 and 131. -/
def escapeChar (c : Char) : List Char :=
  if c = '"' then ['\\', '"']
  else if c = '\\' then ['\\', '\\']
  else if c = '\n' then ['\\', 'n']
  else if c = '\r' then ['\\', 'r']
  else if c = '\t' then ['\\', 't']
  else if c.toNat = 8 then ['\\', 'b']
  else if c.toNat = 12 then ['\\', 'f']
  else if c.toNat < 32 then ['\\', 'u', '0', '0', hexDigit (c.toNat / 16), hexDigit (c.toNat % 16)]
  else [c]

/-- A string with its quotes.
External (crate `serde_json`), used at /repo/src/interfaces/ffi/generate_gpsw_keys.rs:53 and /repo/src/interfaces/pyo3/generate_gpsw_keys.rs:24 and 131. -/
def quote (s : List Char) : List Char := '"' :: (s.flatMap escapeChar ++ ['"'])

mutual
/-- The compact text of a value.
External (crate `serde_json`), used at /repo/src/interfaces/ffi/generate_gpsw_keys.rs:53 and /repo/src/interfaces/pyo3/generate_gpsw_keys.rs:24 and 131. -/
def text : Json → List Char
  | null => ['n', 'u', 'l', 'l']
  | bool true => ['t', 'r', 'u', 'e']
  | bool false => ['f', 'a', 'l', 's', 'e']
  | num t => t
  | str s => quote s
  | arr l => '[' :: (elems l ++ [']'])
  | obj l => '{' :: (members l ++ ['}'])
/-- Elements of an array separated by commas.
External (crate `serde_json`), used at /repo/src/interfaces/ffi/generate_gpsw_keys.rs:53 and /repo/src/interfaces/pyo3/generate_gpsw_keys.rs:24 and 131. -/
def elems : List Json → List Char
  | [] => []
  | x :: l => text x ++ tailElems l
/-- The further elements, each after a comma.
External (crate `serde_json`), used at /repo/src/interfaces/ffi/generate_gpsw_keys.rs:53 and /repo/src/interfaces/pyo3/generate_gpsw_keys.rs:24 and 131. -/
def tailElems : List Json → List Char
  | [] => []
  | x :: l => ',' :: (text x ++ tailElems l)
/-- Members of an object separated by commas.
External (crate `serde_json`), used at /repo/src/interfaces/ffi/generate_gpsw_keys.rs:53 and /repo/src/interfaces/pyo3/generate_gpsw_keys.rs:24 and 131. -/
def members : List (List Char × Json) → List Char
  | [] => []
  | (k, x) :: l => quote k ++ ':' :: (text x ++ tailMembers l)
/-- The further members, each after a comma.
External (crate `serde_json`), used at /repo/src/interfaces/ffi/generate_gpsw_keys.rs:53 and /repo/src/interfaces/pyo3/generate_gpsw_keys.rs:24 and 131. -/
def tailMembers : List (List Char × Json) → List Char
  | [] => []
  | (k, x) :: l => ',' :: (quote k ++ ':' :: (text x ++ tailMembers l))
end

/-! ## Reading -/

/-- A reader of a prefix of the text: the value and the rest.
External (crate `serde_json`), used at /repo/src/interfaces/ffi/generate_gpsw_keys.rs:53 and /repo/src/interfaces/pyo3/generate_gpsw_keys.rs:24 and 131. -/
abbrev Scan (α : Type) := List Char → Option (α × List Char)

/-- White space of JSON.
External (crate `serde_json`), used at /repo/src/interfaces/ffi/generate_gpsw_keys.rs:53 and /repo/src/interfaces/pyo3/generate_gpsw_keys.rs:24 and 131. -/
def isSpace (c : Char) : Bool := c = ' ' || c = '\n' || c = '\t' || c = '\r'

/-- Skip white space.
External (crate `serde_json`), used at /repo/src/interfaces/ffi/generate_gpsw_keys.rs:53 and /repo/src/interfaces/pyo3/generate_gpsw_keys.rs:24 and 131. -/
def skip (s : List Char) : List Char := s.dropWhile isSpace

/-- Decimal digits.
External (crate `serde_json`), used at /repo/src/interfaces/ffi/generate_gpsw_keys.rs:53 and /repo/src/interfaces/pyo3/generate_gpsw_keys.rs:24 and 131. -/
def isDigit (c : Char) : Bool := decide (48 ≤ c.toNat ∧ c.toNat ≤ 57)

/-- Value of a hexadecimal digit.
External (crate `serde_json`), used at /repo/src/interfaces/ffi/generate_gpsw_keys.rs:53 and /repo/src/interfaces/pyo3/generate_gpsw_keys.rs:24 and 131. -/
def hexVal (c : Char) : Option Nat :=
  if 48 ≤ c.toNat ∧ c.toNat ≤ 57 then some (c.toNat - 48)
  else if 97 ≤ c.toNat ∧ c.toNat ≤ 102 then some (c.toNat - 87)
  else if 65 ≤ c.toNat ∧ c.toNat ≤ 70 then some (c.toNat - 55)
  else none

/-- Four hexadecimal digits.
External (crate `serde_json`), used at /repo/src/interfaces/ffi/generate_gpsw_keys.rs:53 and /repo/src/interfaces/pyo3/generate_gpsw_keys.rs:24 and 131. -/
def hex4 : Scan Nat
  | a :: b :: c :: d :: r => do
    let a ← hexVal a
    let b ← hexVal b
    let c ← hexVal c
    let d ← hexVal d
    some (((a * 16 + b) * 16 + c) * 16 + d, r)
  | _ => none

/-- The rest of an escape `\u`: a code point of the basic plane, or a pair of surrogates.
External (crate `serde_json`), used at /repo/src/interfaces/ffi/generate_gpsw_keys.rs:53 and /repo/src/interfaces/pyo3/generate_gpsw_keys.rs:24 and 131. -/
def unicode (s : List Char) : Option (Char × List Char) := do
  let (v, r) ← hex4 s
  if 0xDC00 ≤ v ∧ v ≤ 0xDFFF then none
  else if 0xD800 ≤ v ∧ v ≤ 0xDBFF then
    match r with
    | '\\' :: 'u' :: r => do
      let (w, r) ← hex4 r
      if 0xDC00 ≤ w ∧ w ≤ 0xDFFF then some (Char.ofNat (0x10000 + (v - 0xD800) * 0x400 + (w - 0xDC00)), r) else none
    | _ => none
  else some (Char.ofNat v, r)

/-- The rest of an escape, after the backslash.
External (crate `serde_json`), used at /repo/src/interfaces/ffi/generate_gpsw_keys.rs:53 and /repo/src/interfaces/pyo3/generate_gpsw_keys.rs:24 and 131. -/
def escape : Scan Char
  | '"' :: r => some ('"', r)
  | '\\' :: r => some ('\\', r)
  | '/' :: r => some ('/', r)
  | 'b' :: r => some (Char.ofNat 8, r)
  | 'f' :: r => some (Char.ofNat 12, r)
  | 'n' :: r => some ('\n', r)
  | 'r' :: r => some ('\r', r)
  | 't' :: r => some ('\t', r)
  | 'u' :: r => unicode r
  | _ => none

/-- The rest of a string, after its first quote; at most `fuel` characters are read.
External (crate `serde_json`), used at /repo/src/interfaces/ffi/generate_gpsw_keys.rs:53 and /repo/src/interfaces/pyo3/generate_gpsw_keys.rs:24 and 131. -/
def stringBody : Nat → Scan (List Char)
  | 0, _ => none
  | _ + 1, [] => none
  | n + 1, c :: r =>
    if c = '"' then some ([], r)
    else if c = '\\' then do
      let (c, r) ← escape r
      let (t, r) ← stringBody n r
      some (c :: t, r)
    else if c.toNat < 32 then none
    else do
      let (t, r) ← stringBody n r
      some (c :: t, r)

/-- Digits, at least one.
External (crate `serde_json`), used at /repo/src/interfaces/ffi/generate_gpsw_keys.rs:53 and /repo/src/interfaces/pyo3/generate_gpsw_keys.rs:24 and 131. -/
def digits1 (s : List Char) : Option (List Char × List Char) :=
  match s.takeWhile isDigit with
  | [] => none
  | ds => some (ds, s.dropWhile isDigit)

/-- The integer part of a number: no leading zero.
External (crate `serde_json`), used at /repo/src/interfaces/ffi/generate_gpsw_keys.rs:53 and /repo/src/interfaces/pyo3/generate_gpsw_keys.rs:24 and 131. -/
def intPart : Scan (List Char)
  | '0' :: r => some (['0'], r)
  | s => digits1 s

/-- The fraction of a number, if there is one.
External (crate `serde_json`), used at /repo/src/interfaces/ffi/generate_gpsw_keys.rs:53 and /repo/src/interfaces/pyo3/generate_gpsw_keys.rs:24 and 131. -/
def fracPart : Scan (List Char)
  | '.' :: r => (digits1 r).map fun (d, r) => ('.' :: d, r)
  | s => some ([], s)

/-- The exponent of a number, if there is one.
External (crate `serde_json`), used at /repo/src/interfaces/ffi/generate_gpsw_keys.rs:53 and /repo/src/interfaces/pyo3/generate_gpsw_keys.rs:24 and 131. -/
def expPart : Scan (List Char)
  | [] => some ([], [])
  | e :: s =>
    if e = 'e' ∨ e = 'E' then
      match s with
      | [] => none
      | g :: r =>
        if g = '+' ∨ g = '-' then (digits1 r).map fun (d, r) => (e :: g :: d, r)
        else (digits1 (g :: r)).map fun (d, r) => (e :: d, r)
    else some ([], e :: s)

/-- A number without its sign.
External (crate `serde_json`), used at /repo/src/interfaces/ffi/generate_gpsw_keys.rs:53 and /repo/src/interfaces/pyo3/generate_gpsw_keys.rs:24 and 131. -/
def unsigned (s : List Char) : Option (List Char × List Char) := do
  let (i, s) ← intPart s
  let (f, s) ← fracPart s
  let (e, s) ← expPart s
  some (i ++ f ++ e, s)

/-- A number.
External (crate `serde_json`), used at /repo/src/interfaces/ffi/generate_gpsw_keys.rs:53 and /repo/src/interfaces/pyo3/generate_gpsw_keys.rs:24 and 131. -/
def number : Scan (List Char)
  | '-' :: r => (unsigned r).map fun (t, r) => ('-' :: t, r)
  | s => unsigned s

/-- The rest of a list of items, after an item, up to the character `close`; at most `fuel` further items.
External (crate `serde_json`), used at /repo/src/interfaces/ffi/generate_gpsw_keys.rs:53 and /repo/src/interfaces/pyo3/generate_gpsw_keys.rs:24 and 131. -/
def itemsTail {α : Type} (close : Char) (item : Scan α) : Nat → Scan (List α)
  | 0, _ => none
  | n + 1, s =>
    match skip s with
    | [] => none
    | c :: r =>
      if c = close then some ([], r)
      else if c = ',' then do
        let (x, r) ← item (skip r)
        let (l, r) ← itemsTail close item n r
        some (x :: l, r)
      else none

/-- The rest of an array or an object, after its opening character, up to the character `close`.
External (crate `serde_json`), used at /repo/src/interfaces/ffi/generate_gpsw_keys.rs:53 and /repo/src/interfaces/pyo3/generate_gpsw_keys.rs:24 and 131. -/
def items {α : Type} (close : Char) (item : Scan α) (s : List Char) : Option (List α × List Char) :=
  match skip s with
  | [] => none
  | c :: r =>
    if c = close then some ([], r)
    else do
      let (x, r') ← item (c :: r)
      let (l, r') ← itemsTail close item (c :: r).length r'
      some (x :: l, r')

/-- A member of an object.
External (crate `serde_json`), used at /repo/src/interfaces/ffi/generate_gpsw_keys.rs:53 and /repo/src/interfaces/pyo3/generate_gpsw_keys.rs:24 and 131. -/
def member (value : Scan Json) : Scan (List Char × Json)
  | [] => none
  | c :: r =>
    if c = '"' then do
      let (k, r) ← stringBody r.length r
      match skip r with
      | [] => none
      | c :: r => if c = ':' then (value (skip r)).map fun (x, r) => ((k, x), r) else none
    else none

/-- The rest of `null`, `true` or `false`.
External (crate `serde_json`), used at /repo/src/interfaces/ffi/generate_gpsw_keys.rs:53 and /repo/src/interfaces/pyo3/generate_gpsw_keys.rs:24 and 131. -/
def literal (rest : List Char) (j : Json) (s : List Char) : Option (Json × List Char) :=
  if rest.isPrefixOf s then some (j, s.drop rest.length) else none

/-- A value which is not an array or an object, or the beginning of one of them.
External (crate `serde_json`), used at /repo/src/interfaces/ffi/generate_gpsw_keys.rs:53 and /repo/src/interfaces/pyo3/generate_gpsw_keys.rs:24 and 131. -/
def valueWith (array object : Scan Json) : Scan Json
  | [] => none
  | c :: r =>
    if c = '"' then (stringBody r.length r).map fun (s, r) => (str s, r)
    else if c = '[' then array r
    else if c = '{' then object r
    else if c = 'n' then literal ['u', 'l', 'l'] null r
    else if c = 't' then literal ['r', 'u', 'e'] (bool true) r
    else if c = 'f' then literal ['a', 'l', 's', 'e'] (bool false) r
    else (number (c :: r)).map fun (t, r) => (num t, r)

/-- A value with at most `depth` nested arrays and objects.
External (crate `serde_json`), used at /repo/src/interfaces/ffi/generate_gpsw_keys.rs:53 and /repo/src/interfaces/pyo3/generate_gpsw_keys.rs:24 and 131. -/
def value : Nat → Scan Json
  | 0 => valueWith (fun _ => none) (fun _ => none)
  | d + 1 => valueWith (fun s => (items ']' (value d) s).map fun (l, r) => (arr l, r))
      (fun s => (items '}' (member (value d)) s).map fun (l, r) => (obj l, r))

/-- The number of nested arrays and objects `serde_json` accepts: its counter starts at 128, is decremented at each of them, and must not
reach 0.
External (crate `serde_json`), used at /repo/src/interfaces/ffi/generate_gpsw_keys.rs:53 and /repo/src/interfaces/pyo3/generate_gpsw_keys.rs:24 and 131. -/
def maxDepth : Nat := 127

/-- `serde_json::from_slice` up to the conversion of the value: the bytes are UTF-8, there is one value, followed by white space only.
External (crate `serde_json`), used at /repo/src/interfaces/ffi/generate_gpsw_keys.rs:53 and /repo/src/interfaces/pyo3/generate_gpsw_keys.rs:24 and 131. -/
def ofBytes (b : Bytes) : Option Json := do
  let chars ← ByteArray.utf8Decode? ⟨b.toArray⟩
  let (j, r) ← value maxDepth (skip chars.toList)
  if skip r = [] then some j else none

/-- `serde_json::to_vec`.
External (crate `serde_json`), used at /repo/src/interfaces/ffi/generate_gpsw_keys.rs:53 and /repo/src/interfaces/pyo3/generate_gpsw_keys.rs:24 and 131. -/
def toBytes (j : Json) : Bytes := (String.ofList j.text).toByteArray.data.toList

/-! ## Conversions -/

/-- A number as an integer of a type with `bound` values.
External (crate `serde_json`), used at /repo/src/interfaces/ffi/generate_gpsw_keys.rs:53 and /repo/src/interfaces/pyo3/generate_gpsw_keys.rs:24 and 131. -/
def asNat (bound : Nat) : Json → Option Nat
  | num t => if t.all isDigit ∧ digitsVal t < bound then some (digitsVal t) else none
  | _ => none

/-- External (crate `serde_json`), used at /repo/src/interfaces/ffi/generate_gpsw_keys.rs:53 and /repo/src/interfaces/pyo3/generate_gpsw_keys.rs:24 and 131. -/
def asU32 (j : Json) : Option UInt32 := (j.asNat (2 ^ 32)).map Nat.toUInt32

/-- External (crate `serde_json`), used at /repo/src/interfaces/ffi/generate_gpsw_keys.rs:53 and /repo/src/interfaces/pyo3/generate_gpsw_keys.rs:24 and 131. -/
def asU8 (j : Json) : Option UInt8 := (j.asNat (2 ^ 8)).map Nat.toUInt8

/-- External (crate `serde_json`), used at /repo/src/interfaces/ffi/generate_gpsw_keys.rs:53 and /repo/src/interfaces/pyo3/generate_gpsw_keys.rs:24 and 131. -/
def asBool : Json → Option Bool
  | bool b => some b
  | _ => none

/-- External (crate `serde_json`), used at /repo/src/interfaces/ffi/generate_gpsw_keys.rs:53 and /repo/src/interfaces/pyo3/generate_gpsw_keys.rs:24 and 131. -/
def asString : Json → Option String
  | str s => some (String.ofList s)
  | _ => none

/-- External (crate `serde_json`), used at /repo/src/interfaces/ffi/generate_gpsw_keys.rs:53 and /repo/src/interfaces/pyo3/generate_gpsw_keys.rs:24 and 131. -/
def asList {α : Type} (f : Json → Option α) : Json → Option (List α)
  | arr l => l.mapM f
  | _ => none

/-- External (crate `serde_json`), used at /repo/src/interfaces/ffi/generate_gpsw_keys.rs:53 and /repo/src/interfaces/pyo3/generate_gpsw_keys.rs:24 and 131. -/
def asObject : Json → Option (List (List Char × Json))
  | obj l => some l
  | _ => none

/-- A field of a derived struct: there, and once.
External (crate `serde_json`), used at /repo/src/interfaces/ffi/generate_gpsw_keys.rs:53 and /repo/src/interfaces/pyo3/generate_gpsw_keys.rs:24 and 131. -/
def field (name : String) (l : List (List Char × Json)) : Option Json :=
  match l.filter fun m => m.1 = name.toList with
  | [(_, x)] => some x
  | _ => none

/-- A value of type `Option<_>`: `null` is `None`.
External (crate `serde_json`), used for the metadata at /repo/src/interfaces/pyo3/hybrid_gpsw_aes.rs:83 and 229. -/
def nullable {α : Type} (f : Json → Option α) : Json → Option (Option α)
  | null => some none
  | x => (f x).map some

/-- A field of type `Option<_>` of a derived struct: missing and `null` are `None`.
External (crate `serde_json`), used at /repo/src/interfaces/ffi/generate_gpsw_keys.rs:53 and /repo/src/interfaces/pyo3/generate_gpsw_keys.rs:24 and 131. -/
def optField {α : Type} (f : Json → Option α) (name : String) (l : List (List Char × Json)) : Option (Option α) :=
  match l.filter fun m => m.1 = name.toList with
  | [] => some none
  | [(_, x)] => nullable f x
  | _ => none

/-- A hash map: a repeated key keeps the last value.  (The order of the association list is arbitrary; here it is that of the text.)
External (crate `serde_json`), used at /repo/src/interfaces/ffi/generate_gpsw_keys.rs:53 and /repo/src/interfaces/pyo3/generate_gpsw_keys.rs:24 and 131. -/
def asMap {κ α : Type} [DecidableEq κ] (key : List Char → Option κ) (f : Json → Option α) (j : Json) : Option (List (κ × α)) := do
  let l ← j.asObject
  l.foldlM (fun m (k, x) => do
    let k ← key k
    let x ← f x
    some (m.filter (fun p => ¬ p.1 = k) ++ [(k, x)])) []

end Json

/-- `u32` and `u8` as JSON.
External (crate `serde_json`), used at /repo/src/interfaces/ffi/generate_gpsw_keys.rs:53 and /repo/src/interfaces/pyo3/generate_gpsw_keys.rs:24 and 131. -/
def natJson (n : Nat) : Json := .num (Nat.toDigits 10 n)

/-- A string as JSON.
External (crate `serde_json`), used at /repo/src/interfaces/ffi/generate_gpsw_keys.rs:53 and /repo/src/interfaces/pyo3/generate_gpsw_keys.rs:24 and 131. -/
def strJson (s : String) : Json := .str s.toList

/-! ## Attributes -/

/-- `char::is_whitespace`.  Standard library; trimming is seen at /repo/src/core/tests/policy_tests.rs:40-43 and 48-56. -/
def isWhite (c : Char) : Bool :=
  let n := c.toNat
  (9 ≤ n && n ≤ 13) || n = 32 || n = 0x85 || n = 0xA0 || n = 0x1680 || (0x2000 ≤ n && n ≤ 0x200A) || n = 0x2028 || n = 0x2029 || n = 0x202F || n = 0x205F || n = 0x3000

/-- `str::trim`.  Standard library; trimming is seen at /repo/src/core/tests/policy_tests.rs:40-43 and 48-56. -/
def trim (s : List Char) : List Char := ((s.dropWhile isWhite).reverse.dropWhile isWhite).reverse

/-- `str::split_once("::")`.  Standard library; the separator is seen at /repo/src/core/tests/policy_tests.rs:32-43. -/
def splitColons : List Char → Option (List Char × List Char)
  | [] => none
  | c :: r =>
    match c, r with
    | ':', ':' :: r => some ([], r)
    | c, r => (splitColons r).map fun (a, b) => (c :: a, b)

/-- `Attribute::try_from(&str)`: two non-empty parts around the only separator.
External (crate `abe_policy`), used at /repo/src/core/tests/policy_tests.rs:32-43. -/
def Attribute.ofChars (s : List Char) : Option Attribute := do
  let (axis, name) ← splitColons (trim s)
  if axis = [] ∨ name = [] ∨ (splitColons name).isSome then none
  else some ⟨String.ofList (trim axis), String.ofList (trim name)⟩

/-- `Attribute` as text.  External (crate `abe_policy`), used at /repo/src/core/tests/policy_tests.rs:32. -/
def Attribute.chars (a : Attribute) : List Char := a.axis.toList ++ ':' :: ':' :: a.name.toList

/-- `str::split(',')`.  Standard library; the separator is seen at /repo/src/core/tests/policy_tests.rs:48. -/
def splitCommas : List Char → List (List Char)
  | [] => [[]]
  | c :: r =>
    if c = ',' then [] :: splitCommas r
    else match splitCommas r with
      | [] => [[c]]
      | x :: l => (c :: x) :: l

/-- `Attributes::try_from(&str)`.
External (crate `abe_policy`), used at /repo/src/interfaces/wasm_bindgen/hybrid_gpsw_aes_encryption.rs:70 and 165 and /repo/src/core/tests/policy_tests.rs:48. -/
def attributesOfString (s : String) : Option (List Attribute) := (splitCommas s.toList).mapM Attribute.ofChars

/-- Derived serialisation of `Attribute`: its text.  External (crate `abe_policy`); the form is that of the keys at /repo/src/core/tests/policy_tests.rs:90. -/
def Attribute.json (a : Attribute) : Json := .str a.chars

/-- Derived deserialisation of `Attribute`.
External (crate `abe_policy`), used at /repo/src/interfaces/ffi/generate_gpsw_keys.rs:233, /repo/src/interfaces/pyo3/generate_gpsw_keys.rs:142 and /repo/src/interfaces/wasm_bindgen/generate_gpsw_keys.rs:89. -/
def Attribute.ofJson : Json → Option Attribute
  | .str s => Attribute.ofChars s
  | _ => none

/-! ## Access policies -/

/-- Derived serialisation of `AccessPolicy`.  External (crate `abe_policy`), used at /repo/src/core/tests/engine_tests.rs:207 and 246. -/
def AccessPolicy.json : AccessPolicy → Json
  | .attr a => .obj [("Attr".toList, a.json)]
  | .and l r => .obj [("And".toList, .arr [l.json, r.json])]
  | .or l r => .obj [("Or".toList, .arr [l.json, r.json])]
  | .all => strJson "All"

/-- Derived deserialisation of `AccessPolicy`; the variant without content is its name, or an object with the content `null`.
External (crate `abe_policy`), used at /repo/src/interfaces/ffi/generate_gpsw_keys.rs:151 and /repo/src/core/tests/engine_tests.rs:246. -/
def AccessPolicy.ofJson : Json → Option AccessPolicy
  | .str s => if s = "All".toList then some .all else none
  | .obj [(k, .arr [l, r])] =>
    if k = "And".toList then do
      let l ← AccessPolicy.ofJson l
      let r ← AccessPolicy.ofJson r
      some (.and l r)
    else if k = "Or".toList then do
      let l ← AccessPolicy.ofJson l
      let r ← AccessPolicy.ofJson r
      some (.or l r)
    else none
  | .obj [(k, .str s)] => if k = "Attr".toList then (Attribute.ofChars s).map .attr else none
  | .obj [(k, .null)] => if k = "All".toList then some .all else none
  | _ => none

/-! ## Policies -/

/-- Deserialisation of a `BinaryHeap`: the elements are pushed one after the other.
External (crate `serde`); heaps of values are read at /repo/src/core/tests/policy_tests.rs:90-106. -/
def heapify (l : List UInt32) : List UInt32 := l.foldl heapPush []

/-- Derived serialisation of `Policy`.
External (crate `abe_policy`), used at /repo/src/interfaces/pyo3/generate_gpsw_keys.rs:131 and 152 and /repo/src/interfaces/ffi/generate_gpsw_keys.rs:256; the form is that of /repo/src/core/tests/policy_tests.rs:90. -/
def Policy.json (p : Policy) : Json :=
  .obj [("last_attribute_value".toList, natJson p.lastAttributeValue.toNat),
    ("max_attribute_creations".toList, natJson p.maxAttributeCreations.toNat),
    ("axes".toList, .obj (p.axes.map fun (n, (l, h)) => (n.toList, .arr [.arr (l.map strJson), .bool h]))),
    ("attribute_to_int".toList, .obj (p.attributeToInt.map fun (a, h) => (a.chars, .arr (h.map fun v => natJson v.toNat))))]

/-- An entry of `axes`.  External (crate `abe_policy`); the form is that of /repo/src/core/tests/policy_tests.rs:90. -/
def axisOfJson : Json → Option (List String × Bool)
  | .arr [l, h] => do
    let l ← l.asList Json.asString
    let h ← h.asBool
    some (l, h)
  | _ => none

/-- `Policy` from its fields.
External (crate `abe_policy`), used at /repo/src/interfaces/ffi/generate_gpsw_keys.rs:53, /repo/src/interfaces/pyo3/generate_gpsw_keys.rs:24 and /repo/src/interfaces/wasm_bindgen/generate_gpsw_keys.rs:21. -/
def Policy.ofFields (last max axes values : Json) : Option Policy := do
  let last ← last.asU32
  let max ← max.asU32
  let axes ← axes.asMap (fun k => some (String.ofList k)) axisOfJson
  let values ← values.asMap Attribute.ofChars fun j => (j.asList Json.asU32).map heapify
  some ⟨last, max, axes, values⟩

/-- Derived deserialisation of `Policy`: an object with the fields by name, or an array of the fields.
External (crate `abe_policy`), used at /repo/src/interfaces/ffi/generate_gpsw_keys.rs:53, /repo/src/interfaces/pyo3/generate_gpsw_keys.rs:24 and /repo/src/interfaces/wasm_bindgen/generate_gpsw_keys.rs:21. -/
def Policy.ofJson : Json → Option Policy
  | .arr [last, max, axes, values] => Policy.ofFields last max axes values
  | .obj l => do
    Policy.ofFields (← Json.field "last_attribute_value" l) (← Json.field "max_attribute_creations" l) (← Json.field "axes" l)
      (← Json.field "attribute_to_int" l)
  | _ => none

/-- Derived serialisation of `PolicyAxis`.  External (crate `abe_policy`), used at /repo/src/interfaces/pyo3/generate_gpsw_keys.rs:117. -/
def PolicyAxis.json (a : PolicyAxis) : Json :=
  .obj [("name".toList, strJson a.name), ("attributes".toList, .arr (a.attributes.map strJson)), ("hierarchical".toList, .bool a.hierarchical)]

/-- `PolicyAxis` from its fields.  External (crate `abe_policy`), used at /repo/src/interfaces/pyo3/generate_gpsw_keys.rs:117. -/
def PolicyAxis.ofFields (name attributes hierarchical : Json) : Option PolicyAxis := do
  let name ← name.asString
  let attributes ← attributes.asList Json.asString
  let hierarchical ← hierarchical.asBool
  some ⟨name, attributes, hierarchical⟩

/-- Derived deserialisation of `PolicyAxis`: an object with the fields by name, or an array of the fields.
External (crate `abe_policy`), used at /repo/src/interfaces/pyo3/generate_gpsw_keys.rs:117. -/
def PolicyAxis.ofJson : Json → Option PolicyAxis
  | .arr [name, attributes, hierarchical] => PolicyAxis.ofFields name attributes hierarchical
  | .obj l => do PolicyAxis.ofFields (← Json.field "name" l) (← Json.field "attributes" l) (← Json.field "hierarchical" l)
  | _ => none

/-- Bytes as JSON.  External (crate `serde_json`), used for the metadata at /repo/src/interfaces/pyo3/hybrid_gpsw_aes.rs:83 and 229. -/
def bytesJson (b : Bytes) : Json := .arr (b.map fun x => natJson x.toNat)

/-- Derived serialisation of `Metadata`.  External (crate `cosmian_crypto_base`), used at /repo/src/interfaces/pyo3/hybrid_gpsw_aes.rs:83 and 229. -/
def Metadata.json (m : Metadata) : Json :=
  .obj [("uid".toList, bytesJson m.uid), ("additional_data".toList, match m.additionalData with | none => .null | some b => bytesJson b)]

/-- Derived deserialisation of `Metadata`: an object with the fields by name, or an array of the fields.
External (crate `cosmian_crypto_base`), used at /repo/src/interfaces/pyo3/hybrid_gpsw_aes.rs:83 and 229. -/
def Metadata.ofJson : Json → Option Metadata
  | .arr [uid, ad] => do
    let uid ← uid.asList Json.asU8
    let ad ← Json.nullable (Json.asList Json.asU8) ad
    some ⟨uid, ad⟩
  | .obj l => do
    let uid ← (← Json.field "uid" l).asList Json.asU8
    let ad ← Json.optField (Json.asList Json.asU8) "additional_data" l
    some ⟨uid, ad⟩
  | _ => none

/-- The JSON part of `Serde`; the expressions of access policies stay a parameter.
/repo/src/interfaces/ffi/generate_gpsw_keys.rs:53, 151, 164, 233 and 246, /repo/src/interfaces/pyo3/generate_gpsw_keys.rs:24, 52, 94, 117, 142 and 144, /repo/src/interfaces/pyo3/hybrid_gpsw_aes.rs:83-88 and /repo/src/interfaces/wasm_bindgen/generate_gpsw_keys.rs:21, 61, 89 and 91. -/
def jsonSerde (parse : String → Option AccessPolicy) : Serde where
  policyDec b := (Json.ofBytes b).bind Policy.ofJson
  policyEnc p := some p.json.toBytes
  attributesDec b := (Json.ofBytes b).bind (Json.asList Attribute.ofJson)
  metadataDec b := (Json.ofBytes b).bind Metadata.ofJson
  axesDec b := (Json.ofBytes b).bind (Json.asList PolicyAxis.ofJson)
  accessPolicyDec b := (Json.ofBytes b).bind AccessPolicy.ofJson
  accessPolicyParse := parse
  attributesParse := attributesOfString

end Abe
