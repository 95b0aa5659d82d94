import Verif.Model.Json
import Verif.Spec.Policy

/-!
# Specification of the JSON texts

The grammar of RFC 8259, as relations between values and the texts which write them (any white space, any escapes).
-/

namespace Abe

/-- White space. -/
def Blank (s : List Char) : Prop := ∀ c ∈ s, c ∈ [' ', '\n', '\t', '\r']

/-- `c` is a hexadecimal digit of value `v`. -/
def HexDigit (c : Char) (v : Nat) : Prop := "0123456789abcdef".toList[v]? = some c ∨ "0123456789ABCDEF".toList[v]? = some c

/-- `s` is four hexadecimal digits of value `v`. -/
def Hex4 (s : List Char) (v : Nat) : Prop :=
  ∃ a b c d x y z w, s = [a, b, c, d] ∧ HexDigit a x ∧ HexDigit b y ∧ HexDigit c z ∧ HexDigit d w ∧ v = x * 4096 + y * 256 + z * 16 + w

/-- The text writes the character inside a string. -/
inductive CharWritten : Char → List Char → Prop
  | plain {c : Char} : 0x20 ≤ c.toNat → c ≠ '"' → c ≠ '\\' → CharWritten c [c]
  | quote : CharWritten '"' ['\\', '"']
  | backslash : CharWritten '\\' ['\\', '\\']
  | slash : CharWritten '/' ['\\', '/']
  | backspace : CharWritten '\x08' ['\\', 'b']
  | formFeed : CharWritten '\x0c' ['\\', 'f']
  | newline : CharWritten '\n' ['\\', 'n']
  | carriageReturn : CharWritten '\r' ['\\', 'r']
  | tab : CharWritten '\t' ['\\', 't']
  | unicode {s : List Char} {v : Nat} {c : Char} : Hex4 s v → c.toNat = v → CharWritten c ('\\' :: 'u' :: s)
  | surrogates {s t : List Char} {v w : Nat} {c : Char} : Hex4 s v → Hex4 t w → 0xD800 ≤ v → v < 0xDC00 → 0xDC00 ≤ w → w < 0xE000 →
      c.toNat = 0x10000 + (v - 0xD800) * 0x400 + (w - 0xDC00) → CharWritten c ('\\' :: 'u' :: (s ++ '\\' :: 'u' :: t))

/-- The text writes the characters inside a string. -/
inductive StringWritten : List Char → List Char → Prop
  | nil : StringWritten [] []
  | cons {c : Char} {s t u : List Char} : CharWritten c t → StringWritten s u → StringWritten (c :: s) (t ++ u)

/-- Decimal digits, at least one. -/
def Digits (s : List Char) : Prop := s ≠ [] ∧ ∀ c ∈ s, c ∈ "0123456789".toList

/-- The text is a number: an optional minus sign, an integer without leading zeros, an optional fraction and an optional exponent. -/
def NumberText (t : List Char) : Prop :=
  ∃ sign int frac exp, t = sign ++ int ++ frac ++ exp ∧ (sign = [] ∨ sign = ['-']) ∧ Digits int ∧ (int.head? = some '0' → int = ['0']) ∧
    (frac = [] ∨ ∃ d, Digits d ∧ frac = '.' :: d) ∧
    (exp = [] ∨ ∃ e g d, (e = 'e' ∨ e = 'E') ∧ (g = [] ∨ g = ['+'] ∨ g = ['-']) ∧ Digits d ∧ exp = e :: (g ++ d))

/-- The text writes a value which is neither an array nor an object. -/
inductive ScalarWritten : Json → List Char → Prop
  | null : ScalarWritten .null "null".toList
  | true : ScalarWritten (.bool true) "true".toList
  | false : ScalarWritten (.bool false) "false".toList
  | num {t : List Char} : NumberText t → ScalarWritten (.num t) t
  | str {s t : List Char} : StringWritten s t → ScalarWritten (.str s) ('"' :: (t ++ ['"']))

/-- The text writes the items, separated by commas; `item` tells which text writes an item. -/
inductive ItemsWritten {α : Type} (item : α → List Char → Prop) : List α → List Char → Prop
  | empty {w : List Char} : Blank w → ItemsWritten item [] w
  | last {x : α} {w t w' : List Char} : Blank w → item x t → Blank w' → ItemsWritten item [x] (w ++ t ++ w')
  | more {x y : α} {l : List α} {w t w' s : List Char} : Blank w → item x t → Blank w' → ItemsWritten item (y :: l) s →
      ItemsWritten item (x :: y :: l) (w ++ t ++ w' ++ ',' :: s)

/-- The text writes the member of an object: a string, a colon and a value. -/
def MemberWritten (value : Json → List Char → Prop) (m : List Char × Json) (t : List Char) : Prop :=
  ∃ k w w' v, StringWritten m.1 k ∧ Blank w ∧ Blank w' ∧ value m.2 v ∧ t = '"' :: (k ++ ['"'] ++ w ++ [':'] ++ w' ++ v)

/-- The text writes the value, with at most `depth` nested arrays and objects. -/
def JsonWritten : (depth : Nat) → Json → List Char → Prop
  | 0, j, t => ScalarWritten j t
  | d + 1, j, t => ScalarWritten j t ∨ (∃ l s, j = .arr l ∧ ItemsWritten (JsonWritten d) l s ∧ t = '[' :: (s ++ [']'])) ∨
      ∃ l s, j = .obj l ∧ ItemsWritten (MemberWritten (JsonWritten d)) l s ∧ t = '{' :: (s ++ ['}'])

/-- The bytes are a JSON document: UTF-8, one value, white space around it, at most 127 nested arrays and objects. -/
def JsonDocument (j : Json) (b : Bytes) : Prop :=
  ∃ w t w', Blank w ∧ JsonWritten 127 j t ∧ Blank w' ∧ b = (String.ofList (w ++ t ++ w')).toByteArray.data.toList

/-- White space of `char::is_whitespace` at neither end, and not empty. -/
def Trimmed (s : String) : Prop :=
  (∃ c, s.toList.head? = some c ∧ ¬ isWhite c) ∧ ∃ c, s.toList.getLast? = some c ∧ ¬ isWhite c

/-- Names which `axis::name` keeps apart: both are trimmed and without `::`, and the axis does not end with a colon. -/
structure Attribute.Spelled (a : Attribute) : Prop where
  axis : Trimmed a.axis
  name : Trimmed a.name
  axisColons : ¬ [':', ':'] <:+: a.axis.toList
  axisEnd : a.axis.toList.getLast? ≠ some ':'
  nameColons : ¬ [':', ':'] <:+: a.name.toList

/-- All the attributes of the policy are so. -/
def Policy.Spelled (p : Policy) : Prop := ∀ a, p.Known a → a.Spelled

/-- All the attributes mentioned in the access policy are so. -/
def AccessPolicy.Spelled (ap : AccessPolicy) : Prop := ∀ a, ap.Mentions a → a.Spelled

/-- The number of nested `And` and `Or`. -/
def AccessPolicy.nesting : AccessPolicy → Nat
  | .attr _ => 0
  | .all => 0
  | .and l r => max l.nesting r.nesting + 1
  | .or l r => max l.nesting r.nesting + 1

/-- The fields of a policy: numbers in decimal digits; an object from the names of the axes to their attributes and to whether they are hierarchical; an object from the attributes,
`axis::name`, to their values. -/
def Policy.members (p : Policy) : List (List Char × Json) :=
  [("last_attribute_value".toList, .num (Nat.toDigits 10 p.lastAttributeValue.toNat)),
    ("max_attribute_creations".toList, .num (Nat.toDigits 10 p.maxAttributeCreations.toNat)),
    ("axes".toList, .obj (p.axes.map fun (n, (l, h)) => (n.toList, .arr [.arr (l.map fun s => .str s.toList), .bool h]))),
    ("attribute_to_int".toList,
      .obj (p.attributeToInt.map fun (a, h) => (a.axis.toList ++ "::".toList ++ a.name.toList, .arr (h.map fun v => .num (Nat.toDigits 10 v.toNat)))))]

/-- The value is a struct with these fields, of different names: an object with these fields, once each, in any order, and possibly others; or the array of the fields. -/
def Json.Struct (fields : List (List Char × Json)) (j : Json) : Prop :=
  (∃ l, j = .obj l ∧ (l.filter fun x => x.1 ∈ fields.map Prod.fst).Perm fields) ∨ j = .arr (fields.map Prod.snd)

/-- The bytes are a JSON text of the policy. -/
def Policy.Text (p : Policy) (b : Bytes) : Prop := ∃ j, Json.Struct p.members j ∧ JsonDocument j b

/-- The JSON value of an attribute. -/
def Attribute.value (a : Attribute) : Json := .str (a.axis.toList ++ "::".toList ++ a.name.toList)

/-- The JSON value of an access policy, as in /repo/src/interfaces/hybrid_crypto/tests/fin_top_secret_user_key.json. -/
def AccessPolicy.value : AccessPolicy → Json
  | .attr a => .obj [("Attr".toList, a.value)]
  | .and l r => .obj [("And".toList, .arr [l.value, r.value])]
  | .or l r => .obj [("Or".toList, .arr [l.value, r.value])]
  | .all => .str "All".toList

/-- White space of `char::is_whitespace`. -/
def White (s : List Char) : Prop := ∀ c ∈ s, isWhite c = true

/-- The text stands for the attribute: the two names, trimmed, around the only `::`, with any white space around each of them.  (In `a:::b` the separator is the first `::`.) -/
def Attribute.Text (a : Attribute) (s : List Char) : Prop :=
  ∃ u v v' w, s = u ++ a.axis.toList ++ v ++ "::".toList ++ v' ++ a.name.toList ++ w ∧ White u ∧ White v ∧ White v' ∧ White w ∧ Trimmed a.axis ∧ Trimmed a.name ∧
    ¬ [':', ':'] <:+: a.axis.toList ++ v ++ [':'] ∧ ¬ [':', ':'] <:+: a.name.toList

/-- The JSON value stands for the access policy; there are two for `All`. -/
inductive AccessPolicy.Value : AccessPolicy → Json → Prop
  | attr {a : Attribute} {s : List Char} : a.Text s → AccessPolicy.Value (.attr a) (.obj [("Attr".toList, .str s)])
  | and {l r : AccessPolicy} {x y : Json} : AccessPolicy.Value l x → AccessPolicy.Value r y → AccessPolicy.Value (.and l r) (.obj [("And".toList, .arr [x, y])])
  | or {l r : AccessPolicy} {x y : Json} : AccessPolicy.Value l x → AccessPolicy.Value r y → AccessPolicy.Value (.or l r) (.obj [("Or".toList, .arr [x, y])])
  | all : AccessPolicy.Value .all (.str "All".toList)
  | all' : AccessPolicy.Value .all (.obj [("All".toList, .null)])

/-- The bytes are a JSON text of the access policy. -/
def AccessPolicy.Text (ap : AccessPolicy) (b : Bytes) : Prop := ∃ j, ap.Value j ∧ JsonDocument j b

/-- The fields of an axis. -/
def PolicyAxis.members (a : PolicyAxis) : List (List Char × Json) :=
  [("name".toList, .str a.name.toList), ("attributes".toList, .arr (a.attributes.map fun s => .str s.toList)), ("hierarchical".toList, .bool a.hierarchical)]

/-- The value is the number, in decimal digits. -/
def Json.Number (n : Nat) : Json → Prop
  | .num t => (∀ c ∈ t, c ∈ "0123456789".toList) ∧ t.foldl (fun a c => a * 10 + "0123456789".toList.idxOf c) 0 = n
  | _ => False

/-- The value is an array of these numbers. -/
def Json.Numbers (l : List Nat) (j : Json) : Prop := ∃ xs, j = .arr xs ∧ List.Forall₂ Json.Number l xs

/-- The association list holds what the members of an object say, the last of those with the same key counting: no key is there twice, every member makes sense, and an entry is there
exactly for each key that a member has. -/
def Json.Entries {κ α : Type} (key : List Char → κ → Prop) (value : Json → α → Prop) (l : List (List Char × Json)) (m : List (κ × α)) : Prop :=
  (m.map Prod.fst).Nodup ∧ (∀ x ∈ l, ∃ k y, key x.1 k ∧ value x.2 y) ∧
  (∀ k y, (k, y) ∈ m → ∃ pre t x post, l = pre ++ (t, x) :: post ∧ key t k ∧ value x y ∧ ∀ z ∈ post, ¬ key z.1 k) ∧
  ∀ k pre t x post, l = pre ++ (t, x) :: post → key t k → (∀ z ∈ post, ¬ key z.1 k) → ∃ y, (k, y) ∈ m ∧ value x y

/-- The value is an array of the values of an attribute, the current one (the first of the heap) being the greatest. -/
def Json.HeapOf (j : Json) (h : List UInt32) : Prop :=
  ∃ l : List UInt32, Json.Numbers (l.map UInt32.toNat) j ∧ h.Perm l ∧ ∀ v ∈ h, ∃ m, h.head? = some m ∧ v ≤ m

/-- The bytes say this about the policy (which may differ from all policies that the library makes). -/
def Policy.Said (p : Policy) (b : Bytes) : Prop :=
  ∃ j last max axes values, JsonDocument j b ∧
    Json.Struct [("last_attribute_value".toList, last), ("max_attribute_creations".toList, max), ("axes".toList, .obj axes), ("attribute_to_int".toList, .obj values)] j ∧
    Json.Number p.lastAttributeValue.toNat last ∧ Json.Number p.maxAttributeCreations.toNat max ∧
    Json.Entries (fun t n => t = n.toList) (fun j (e : List String × Bool) => j = .arr [.arr (e.1.map fun s => .str s.toList), .bool e.2]) axes p.axes ∧
    Json.Entries (fun t a => Attribute.Text a t) Json.HeapOf values p.attributeToInt

/-- The value stands for the metadata; absent additional data are `null`, or left out of an object. -/
def Metadata.Value (m : Metadata) (j : Json) : Prop :=
  ∃ u, Json.Numbers (m.uid.map UInt8.toNat) u ∧
    ((∃ x, (match m.additionalData with | none => x = .null | some d => Json.Numbers (d.map UInt8.toNat) x) ∧ Json.Struct [("uid".toList, u), ("additional_data".toList, x)] j) ∨
      m.additionalData = none ∧ ∃ l, j = .obj l ∧ (l.filter fun x => x.1 ∈ ["uid".toList, "additional_data".toList]).Perm [("uid".toList, u)])

end Abe
