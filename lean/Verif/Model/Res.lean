/-!
# Outcomes of Rust computations

`Res ε α` is the outcome of a Rust function returning `Result<α, ε>`:
`ok`/`err` are the two `Result` constructors, `panic` is an unwinding panic
(index out of bounds, `unwrap` of `None`, checked overflow, `panic!`).
-/

namespace Abe

/-- `ParsingError`, /repo/src/error.rs:130-148.  The conversions from external error types are constructors without payload; constructors that no modelled
function can build are left out. -/
inductive ParsingError where
  | unexpectedCharacter (msg : String)
  | unexpectedEnd (msg : String)
  | parseIntError
  | unsupportedOperator (op : Char)
  deriving DecidableEq, Repr

/-- `FormatErr`, /repo/src/error.rs:14-83, with the messages.  Errors of other crates are constructors without payload (the conversion of `CryptoBaseError`,
/repo/src/error.rs:97-108, which keeps the sizes of some of them, is part of the external functions).  Constructors that no modelled function can build are left
out. -/
inductive FormatErr where
  | cryptoError
  | policyError
  | tryFromIntError
  | parsingError (e : ParsingError)
  /-- the text is the `Debug` of the attribute with this axis and name -/
  | attributeNotFound (axis name : String)
  | missingAttribute (item axis : Option String)
  | missingAxis (axis : String)
  | expectedAttribute (name : String) (list : List String)
  | invalidSize (msg : String)
  | deserialization (msg : String)
  | internalOperation (msg : String)
  | invalidFormula (msg : String)
  | invalidEncryptedData
  | conversionFailed
  | emptyPrivateKey
  | emptyCiphertext
  | emptyPlaintext
  | invalidHeaderSize (n : Nat)
  deriving DecidableEq, Repr

/-- Outcome of a call: `Ok`, `Err` or an unwinding panic.  `Result<_, FormatErr>` of /repo/src/error.rs:14-83. -/
inductive Res (ε : Type) (α : Type) where
  | ok (a : α)
  | err (e : ε)
  | panic
  deriving DecidableEq, Repr

namespace Res

variable {ε : Type} {α : Type} {β : Type}

/-- Sequencing: Rust's `?` operator (errors and panics propagate). -/
@[inline] protected def bind (x : Res ε α) (f : α → Res ε β) : Res ε β :=
  match x with
  | ok a => f a
  | err e => err e
  | panic => panic

/-- `?` of Rust, for example at /repo/src/core/msp.rs:31. -/
instance : Monad (Res ε) where
  pure := Res.ok
  bind := Res.bind

@[simp] theorem ok_bind (a : α) (f : α → Res ε β) : (Res.ok a >>= f) = f a := rfl
@[simp] theorem err_bind (e : ε) (f : α → Res ε β) : ((Res.err e : Res ε α) >>= f) = Res.err e := rfl
@[simp] theorem panic_bind (f : α → Res ε β) : ((Res.panic : Res ε α) >>= f) = Res.panic := rfl
@[simp] theorem pure_eq (a : α) : (pure a : Res ε α) = Res.ok a := rfl

/-- `?` of Rust, for example at /repo/src/core/msp.rs:31. -/
instance : LawfulMonad (Res ε) := LawfulMonad.mk'
  (id_map := fun x => by cases x <;> rfl)
  (pure_bind := fun _ _ => rfl)
  (bind_assoc := fun x _ _ => by cases x <;> rfl)

theorem bind_eq_ok {x : Res ε α} {f : α → Res ε β} {b : β} :
    (x >>= f) = Res.ok b ↔ ∃ a, x = Res.ok a ∧ f a = Res.ok b := by
  cases x <;> simp

theorem bind_eq_panic {x : Res ε α} {f : α → Res ε β} :
    (x >>= f) = Res.panic ↔ x = Res.panic ∨ ∃ a, x = Res.ok a ∧ f a = Res.panic := by
  cases x <;> simp

/-- `Result::map_err`.  For example /repo/src/interfaces/wasm_bindgen/generate_gpsw_keys.rs:22. -/
def mapErr {ε' : Type} (f : ε → ε') : Res ε α → Res ε' α
  | ok a => ok a
  | err e => err (f e)
  | panic => panic

/-- `Option::ok_or`.  For example /repo/src/core/engine.rs:148. -/
def ofOption (e : ε) : Option α → Res ε α
  | some a => ok a
  | none => err e

/-- `Option::unwrap` / `expect`.  For example /repo/src/core/gpsw/scheme.rs:660. -/
def unwrap : Option α → Res ε α
  | some a => ok a
  | none => panic

/-- The call neither succeeds nor panics.  `Err(_)` of the functions of /repo/src. -/
def isErr : Res ε α → Prop
  | err _ => True
  | _ => False

/-- `?` of Rust, for example at /repo/src/core/msp.rs:31. -/
instance : DecidablePred (isErr : Res ε α → Prop) := fun x => by
  cases x <;> simp only [isErr] <;> infer_instance

end Res

/-- Outcome of a function whose error type is `FormatErr`.  /repo/src/error.rs:14-83. -/
abbrev Out (α : Type) := Res FormatErr α

/-- `Vec<u8>` and `&[u8]`, for example /repo/src/core/gpsw/mod.rs:16-26. -/
abbrev Bytes := List UInt8

variable {ε : Type}

/-- `v[i]`: panics when out of bounds.  For example /repo/src/core/msp.rs:135-148. -/
def idx {α : Type} (l : List α) (i : Nat) : Res ε α :=
  match l[i]? with
  | some a => .ok a
  | none => .panic

/-- `&v[i..]`: panics when `i > v.len()`.  For example /repo/src/core/msp.rs:76. -/
def sliceFrom {α : Type} (l : List α) (i : Nat) : Res ε (List α) :=
  if i ≤ l.length then .ok (l.drop i) else .panic

/-- `&v[a..b]`: panics when `a > b` or `b > v.len()`.  For example /repo/src/core/gpsw/mod.rs:26. -/
def slice {α : Type} (l : List α) (a b : Nat) : Res ε (List α) :=
  if a ≤ b ∧ b ≤ l.length then .ok ((l.take b).drop a) else .panic

/-- Loop over a list collecting results, stopping at the first error or panic
(`iter().map(..).collect::<Result<Vec<_>,_>>()` or a `for` loop with `push(..?)`).  For example /repo/src/core/gpsw/scheme.rs:374-388. -/
def mapRes {α : Type} {β : Type} (f : α → Res ε β) : List α → Res ε (List β)
  | [] => .ok []
  | a :: l => do
    let b ← f a
    let bs ← mapRes f l
    .ok (b :: bs)

/-- `for x in list { acc = f(acc, x)? }`.  For example /repo/src/interfaces/ffi/generate_gpsw_keys.rs:250-252. -/
def foldRes {α : Type} {β : Type} (f : β → α → Res ε β) : β → List α → Res ε β
  | b, [] => .ok b
  | b, a :: l => do
    let b' ← f b a
    foldRes f b' l

/-- `Vec::resize(n, x)`.  /repo/src/core/msp.rs:227 and 260 and /repo/src/core/gpsw/scheme.rs:668. -/
def resize {α : Type} (l : List α) (n : Nat) (x : α) : List α :=
  l.take n ++ List.replicate (n - l.length) x

/-- Compilation target: pointer width and whether arithmetic overflow panics (`debug`) or wraps (`release`).
Overflow checks are those of the profile of Cargo; /repo/Cargo.toml sets them for no other profile than `bench`. -/
structure Target where
  bits : Nat
  checked : Bool
  deriving DecidableEq, Repr

namespace Target

/-- Largest representable `usize` plus one.  Overflow checks are those of the profile of Cargo; /repo/Cargo.toml sets them for no other profile than `bench`. -/
def modulus (t : Target) : Nat := 2 ^ t.bits

/-- `a - b` on `usize`.  For example /repo/src/core/gpsw/scheme.rs:668. -/
def usub (t : Target) (a b : Nat) : Res ε Nat :=
  if b ≤ a then .ok (a - b)
  else if t.checked then .panic
  else .ok ((a + t.modulus - b) % t.modulus)

/-- `a + b` on `usize`.  For example /repo/src/core/msp.rs:56. -/
def uadd (t : Target) (a b : Nat) : Res ε Nat :=
  if a + b < t.modulus then .ok (a + b)
  else if t.checked then .panic
  else .ok ((a + b) % t.modulus)

/-- `a * b` on `usize`.  For example /repo/src/core/msp.rs:56. -/
def umul (t : Target) (a b : Nat) : Res ε Nat :=
  if a * b < t.modulus then .ok (a * b)
  else if t.checked then .panic
  else .ok ((a * b) % t.modulus)

/-- 64-bit build without overflow checks (`cargo build --release`).
Overflow checks are those of the profile of Cargo; /repo/Cargo.toml sets them for no other profile than `bench`. -/
def release64 : Target := ⟨64, false⟩
/-- 64-bit build with overflow checks (`cargo build`, `cargo test`).
Overflow checks are those of the profile of Cargo; /repo/Cargo.toml sets them for no other profile than `bench`. -/
def debug64 : Target := ⟨64, true⟩
/-- `wasm32` build without overflow checks.  The target of /repo/src/interfaces/wasm_bindgen/. -/
def release32 : Target := ⟨32, false⟩
/-- `wasm32` build with overflow checks.  The target of /repo/src/interfaces/wasm_bindgen/. -/
def debug32 : Target := ⟨32, true⟩

end Target

/-! ### `HashMap` as an association list

The list order stands for the (unspecified) iteration order. -/

/-- `HashMap::get`.  For example /repo/src/core/msp.rs:145-148. -/
def hget {κ : Type} {α : Type} [DecidableEq κ] (m : List (κ × α)) (k : κ) : Option α :=
  (m.find? fun p => p.1 = k).map Prod.snd

/-- `HashMap::insert`: the map after insertion (the previous value is `hget m k`).  For example /repo/src/core/msp.rs:62-72. -/
def hinsert {κ : Type} {α : Type} [DecidableEq κ] (m : List (κ × α)) (k : κ) (a : α) : List (κ × α) :=
  (k, a) :: m.filter fun p => ¬ p.1 = k

/-- `HashMap::remove`.  /repo/src/interfaces/ffi/hybrid_gpsw_aes.rs:121 and 441. -/
def hremove {κ : Type} {α : Type} [DecidableEq κ] (m : List (κ × α)) (k : κ) : List (κ × α) :=
  m.filter fun p => ¬ p.1 = k

end Abe
