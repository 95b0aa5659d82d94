import Verif.Spec.GcmGame
import Verif.Spec.Nonces
import Verif.Spec.SystemIntegrity

/-!
# Hybrid messages with GCM and any function on blocks

The games of hybrid messages under a symmetric key, played with a function on blocks of 128 bits in place of AES under a key; each is a test that tells AES from
a random function.
-/

namespace Abe

variable {K P Q QP T Key Nonce : Type} [Field K] [DecidableEq K] [AddCommGroup P] [Module K P] [AddCommGroup Q] [Module K Q]
  [AddCommGroup T] [Module K T]

/-- The symmetric scheme of `aesGcm` with functions on blocks as keys.  They are not derived from bytes, hence the fields for this are void. -/
def gcmWith (metaEnc : Metadata → Out Bytes) (metaDec : Bytes → Out Metadata) (num : Nat → Bytes) : External (Bytes → Bytes) AesNonce where
  shake _ _ := []
  keyLen := 0
  keyDec _ := .err .cryptoError
  keyEnc _ := []
  nonceLen := 12
  nonceDec b := if h : b.length = 12 then .ok ⟨b, h⟩ else .err .cryptoError
  nonceEnc n := n.val
  encrypt E m n ad := Gcm.encrypt E n.val (ad.getD []) m
  decrypt E m n ad := Gcm.decrypt E n.val (ad.getD []) m
  metaEnc := metaEnc
  metaDec := metaDec
  overhead := 28
  blockEnc max E uid i p n :=
    if max < p.length then .err .cryptoError
    else do
      let c ← Gcm.encrypt E n.val (uid ++ num i) p
      .ok (n.val ++ c)
  blockDec max E uid i c :=
    if max + 28 < c.length ∨ c.length < 28 then .err .cryptoError
    else Gcm.decrypt E (c.take 12) (uid ++ num i) (c.drop 12)

/-- A message under a key: the bytes that follow the encapsulation in the header, and the blocks. -/
def encryptUnder (e : External Key Nonce) (max : Nat) (key : Key) (msg : HybridMsg) (nonce : Nat → Nonce) : Out (Bytes × List Bytes) := do
  let m ← (match msg.metaData with
    | none => .ok []
    | some m => do
      let mb ← e.metaEnc m
      let em ← e.encrypt key mb (nonce 0) none
      let size ← u32Len em
      .ok (e.nonceEnc (nonce 0) ++ size ++ em) : Out Bytes)
  let bs ← encryptBlocks e max key nonce msg.blocks 1
  .ok (m, bs)

/-! ### Confidentiality -/

/-- Two messages that differ in nothing but clear texts of the same sizes: both without metadata or with metadata whose encodings have the same size, and blocks for the same
identifiers and numbers. -/
def HybridMsg.Alike (metaEnc : Metadata → Out Bytes) (m₀ m₁ : HybridMsg) : Prop :=
  (m₀.metaData.map fun m => (metaEnc m).toOption.map List.length) = (m₁.metaData.map fun m => (metaEnc m).toOption.map List.length) ∧
    m₀.blocks.map (fun b => (b.1, b.2.1, b.2.2.length)) = m₁.blocks.map fun b => (b.1, b.2.1, b.2.2.length)

/-- The rule of the game: the two messages are alike and have at most `n` blocks. -/
def HybridAttacker.Alike (metaEnc : Metadata → Out Bytes) (n : Nat) : HybridAttacker K Q QP → Prop
  | .guess _ => True
  | .toss next => ∀ x, (next x).Alike metaEnc n
  | .choose _ next => ∀ x, (next x).Alike metaEnc n
  | .key _ _ next => ∀ x, (next x).Alike metaEnc n
  | .challenge m₀ m₁ next => m₀.Alike metaEnc m₁ ∧ m₀.blocks.length ≤ n ∧ ∀ x, (next x).Alike metaEnc n

/-- A test of a function on blocks: one of two messages is encrypted with it, the attacker is asked which one; the outcome is whether the answer is right. -/
noncomputable def messageTest [Fintype Nonce] [Nonempty Nonce] (e : External Key Nonce) (max : Nat) (D : SymmetricAttacker) (E : Key) : PMF Bool :=
  (PMF.uniformOfFintype Bool).bind fun b => D.bind fun d =>
    (PMF.uniformOfFintype (Fin ((if b then d.2.1 else d.1).blocks.length + 1) → Nonce)).bind fun ν =>
      (d.2.2 (encryptUnder e max E (if b then d.2.1 else d.1) (padNonce ν)).toOption).map (· == b)

/-! ### Integrity -/

/-- The rules for those who forge: at most `q` headers and blocks asked for, at most `v` attempts, metadata which is read as it was written, numbers of blocks of 64 bits,
identifiers within the limit of the additional data, and at most `L` blocks of 128 bits in metadata, or in identifier and number and clear text. -/
def Forger.Within (metaEnc : Metadata → Out Bytes) (metaDec : Bytes → Out Metadata) (L : Nat) : Forger K Q QP → (q v : Nat) → Prop
  | .stop, _, _ => True
  | .choose _ next, q, v => ∀ x, (next x).Within metaEnc metaDec L q v
  | .key _ _ next, q, v => ∀ x, (next x).Within metaEnc metaDec L q v
  | .header m next, q, v => 0 < q ∧ (∀ a b, m = some a → metaEnc a = .ok b → (b.length + 15) / 16 ≤ L ∧ ∀ a', metaDec b = .ok a' → a' = a) ∧ ∀ x, (next x).Within metaEnc metaDec L (q - 1) v
  | .block uid i p next, q, v => 0 < q ∧ uid.length + 8 ≤ Gcm.limit ∧ i < 2 ^ 64 ∧ (uid.length + 8 + 15) / 16 + (p.length + 15) / 16 ≤ L ∧
      ∀ x, (next x).Within metaEnc metaDec L (q - 1) v
  | .tryBlock uid i b next, q, v => 0 < v ∧ uid.length + 8 ≤ Gcm.limit ∧ i < 2 ^ 64 ∧ (uid.length + 8 + 15) / 16 + (b.length - 28 + 15) / 16 ≤ L ∧
      ∀ x, (next x).Within metaEnc metaDec L q (v - 1)
  | .tryTail tail next, q, v => 0 < v ∧ (tail.length - 32 + 15) / 16 ≤ L ∧ ∀ x, (next x).Within metaEnc metaDec L q (v - 1)

/-- A test of a function on blocks: sender and readers use it; the outcome is whether a reader accepts something the sender did not make. -/
noncomputable def forgeryTest [Fintype Nonce] [Nonempty Nonce] (e : External Key Nonce) (max : Nat) (A : Forger K Q QP) (E : Key) : PMF Bool :=
  A.exec e max (fun _ _ => .pure none) (fun m ν => (encryptUnder e max E ⟨m, []⟩ fun _ => ν).toOption.map fun r => (E, r.1)) {}

/-- The same rules for those who forge one of many messages; there are bounds for each message. -/
def SystemForger.Within {n : Nat} (metaEnc : Metadata → Out Bytes) (metaDec : Bytes → Out Metadata) (L : Nat) : SystemForger K Q QP n → (q v : Fin n → Nat) → Prop
  | .stop, _, _ => True
  | .choose _ next, q, v => ∀ x, (next x).Within metaEnc metaDec L q v
  | .key _ _ next, q, v => ∀ x, (next x).Within metaEnc metaDec L q v
  | .header j m next, q, v => 0 < q j ∧ (∀ a b, m = some a → metaEnc a = .ok b → (b.length + 15) / 16 ≤ L ∧ ∀ a', metaDec b = .ok a' → a' = a) ∧
      ∀ x, (next x).Within metaEnc metaDec L (Function.update q j (q j - 1)) v
  | .block j uid i p next, q, v => 0 < q j ∧ uid.length + 8 ≤ Gcm.limit ∧ i < 2 ^ 64 ∧ (uid.length + 8 + 15) / 16 + (p.length + 15) / 16 ≤ L ∧
      ∀ x, (next x).Within metaEnc metaDec L (Function.update q j (q j - 1)) v
  | .tryBlock j uid i b next, q, v => 0 < v j ∧ uid.length + 8 ≤ Gcm.limit ∧ i < 2 ^ 64 ∧ (uid.length + 8 + 15) / 16 + (b.length - 28 + 15) / 16 ≤ L ∧
      ∀ x, (next x).Within metaEnc metaDec L q (Function.update v j (v j - 1))
  | .tryTail j tail next, q, v => 0 < v j ∧ (tail.length - 32 + 15) / 16 ≤ L ∧ ∀ x, (next x).Within metaEnc metaDec L q (Function.update v j (v j - 1))

end Abe
