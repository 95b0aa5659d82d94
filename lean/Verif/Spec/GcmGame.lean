import Verif.Model.AesGcm
import Mathlib.Probability.Distributions.Uniform

/-!
# What GCM is to achieve

Games with the block cipher replaced by a function on blocks of 128 bits chosen uniformly at random: someone who asks for ciphertexts and tries to make another one, and
someone who asks for ciphertexts of one of two clear texts and guesses which one it was.
-/

namespace Abe

namespace Gcm

/-- Blocks of 128 bits, as numbers. -/
abbrev Blk := Fin (2 ^ 128)

/-- A function on blocks, as a function on bytes. -/
def onBytes (E : Blk → Blk) (b : Bytes) : Bytes := bytes16 (E (Fin.ofNat (2 ^ 128) (number b))).val

/-- How many blocks so many bytes take. -/
def units (b : Bytes) : Nat := (b.length + 15) / 16

/-- The limit of SP 800-38D, section 5.2.1.1, on the clear text, in bytes. -/
def maxClear : Nat := 2 ^ 36 - 32

/-- Someone who asks for ciphertexts, choosing nonces, additional data and clear texts in view of the ciphertexts received before, and has ciphertexts opened. -/
inductive Forger where
  | stop
  | ask (nonce ad m : Bytes) (next : Bytes → Forger)
  | submit (nonce ad c : Bytes) (next : Option Bytes → Forger)

/-- The rules: nonces of twelve bytes, for encryption never one twice, clear texts within the limit, at most `L` blocks of additional data and ciphertext, and at
most `v` ciphertexts submitted.  `used` are the nonces used before. -/
def Forger.Proper (L : Nat) : Forger → (v : Nat) → (used : List Bytes) → Prop
  | .stop, _, _ => True
  | .ask nonce ad m next, v, used => nonce.length = 12 ∧ nonce ∉ used ∧ m.length ≤ maxClear ∧ ad.length ≤ limit ∧ units ad + units m ≤ L ∧
      ∀ c, (next c).Proper L v (nonce :: used)
  | .submit nonce ad c next, v, used => nonce.length = 12 ∧ units ad + units (c.take (c.length - 16)) ≤ L ∧ 0 < v ∧ ∀ m, (next m).Proper L (v - 1) used

/-- The forger wins if some submitted ciphertext is accepted which was not received for this nonce and additional data.  `seen` are the ciphertexts received before. -/
def Forger.Wins (E : Bytes → Bytes) : Forger → (seen : List (Bytes × Bytes × Bytes)) → Prop
  | .stop, _ => False
  | .ask nonce ad m next, seen =>
    match encrypt E nonce ad m with
    | .ok c => (next c).Wins E ((nonce, ad, c) :: seen)
    | _ => False
  | .submit nonce ad c next, seen =>
    match decrypt E nonce ad c with
    | .ok m => (nonce, ad, c) ∉ seen ∨ (next (some m)).Wins E seen
    | _ => (next none).Wins E seen

/-- Someone who asks for ciphertexts of one of two clear texts, and guesses at the end. -/
inductive Guesser where
  | guess (b : Bool)
  | ask (nonce ad m₀ m₁ : Bytes) (next : Bytes → Guesser)

/-- The rules: nonces of twelve bytes, never one twice, two clear texts of the same size within the limit. -/
def Guesser.Proper : Guesser → (used : List Bytes) → Prop
  | .guess _, _ => True
  | .ask nonce ad m₀ m₁ next, used => nonce.length = 12 ∧ nonce ∉ used ∧ m₀.length = m₁.length ∧ m₀.length ≤ maxClear ∧ ad.length ≤ limit ∧
      ∀ c, (next c).Proper (nonce :: used)

/-- What the guesser says if the second clear texts are encrypted (`side`) or the first ones. -/
def Guesser.says (E : Bytes → Bytes) (side : Bool) : Guesser → Option Bool
  | .guess b => some b
  | .ask nonce ad m₀ m₁ next =>
    match encrypt E nonce ad (if side then m₁ else m₀) with
    | .ok c => (next c).says E side
    | _ => none

/-- A function on blocks chosen uniformly at random. -/
noncomputable def randomFunction : PMF (Blk → Blk) := PMF.uniformOfFintype _

end Gcm

/-- Someone who asks for blocks, choosing identifiers, numbers, clear texts and nonces in view of the blocks received before, and has blocks opened. -/
inductive BlockForger (Nonce : Type) where
  | stop
  | ask (uid : Bytes) (i : Nat) (p : Bytes) (n : Nonce) (next : Option Bytes → BlockForger Nonce)
  | submit (uid : Bytes) (i : Nat) (c : Bytes) (next : Option Bytes → BlockForger Nonce)

/-- The rules: never one nonce twice, block numbers of 64 bits, identifiers within the limit of the additional data, at most `L` blocks of 128 bits in identifier and number
and in the clear text, and at most `v` blocks submitted.  `used` are the nonces used before. -/
def BlockForger.Proper {Nonce : Type} (L : Nat) : BlockForger Nonce → (v : Nat) → (used : List Nonce) → Prop
  | .stop, _, _ => True
  | .ask uid i p n next, v, used => n ∉ used ∧ uid.length + 8 ≤ Gcm.limit ∧ i < 2 ^ 64 ∧ (uid.length + 8 + 15) / 16 + (p.length + 15) / 16 ≤ L ∧
      ∀ r, (next r).Proper L v (n :: used)
  | .submit uid i c next, v, used => uid.length + 8 ≤ Gcm.limit ∧ i < 2 ^ 64 ∧ (uid.length + 8 + 15) / 16 + (c.length - 28 + 15) / 16 ≤ L ∧ 0 < v ∧
      ∀ r, (next r).Proper L (v - 1) used

/-- The forger wins if some submitted block is accepted which was not received for this identifier and number.  `seen` are the blocks received before. -/
def BlockForger.Wins {Key Nonce : Type} (e : External Key Nonce) (max : Nat) (k : Key) : BlockForger Nonce → (seen : List (Bytes × Nat × Bytes)) → Prop
  | .stop, _ => False
  | .ask uid i p n next, seen =>
    match encryptHybridBlock e max k uid i p n with
    | .ok c => (next (some c)).Wins e max k ((uid, i, c) :: seen)
    | _ => (next none).Wins e max k seen
  | .submit uid i c next, seen =>
    match decryptHybridBlock e max k uid i c with
    | .ok p => (uid, i, c) ∉ seen ∨ (next (some p)).Wins e max k seen
    | _ => (next none).Wins e max k seen

/-- Someone who asks for blocks of one of two clear texts, and guesses at the end. -/
inductive BlockGuesser (Nonce : Type) where
  | guess (b : Bool)
  | ask (uid : Bytes) (i : Nat) (p₀ p₁ : Bytes) (n : Nonce) (next : Option Bytes → BlockGuesser Nonce)

/-- The rules: never one nonce twice, two clear texts of the same size, identifiers within the limit of the additional data. -/
def BlockGuesser.Proper {Nonce : Type} : BlockGuesser Nonce → (used : List Nonce) → Prop
  | .guess _, _ => True
  | .ask uid _ p₀ p₁ n next, used => n ∉ used ∧ p₀.length = p₁.length ∧ uid.length + 8 ≤ Gcm.limit ∧ ∀ r, (next r).Proper (n :: used)

/-- What the guesser says if the second clear texts are encrypted (`side`) or the first ones. -/
def BlockGuesser.says {Key Nonce : Type} (e : External Key Nonce) (max : Nat) (k : Key) (side : Bool) : BlockGuesser Nonce → Bool
  | .guess b => b
  | .ask uid i p₀ p₁ n next =>
    match encryptHybridBlock e max k uid i (if side then p₁ else p₀) n with
    | .ok c => (next (some c)).says e max k side
    | _ => (next none).says e max k side

/-- The forger of blocks as a forger of ciphertexts: it refuses by itself what the block functions refuse for its size. -/
def BlockForger.forger (max : Nat) (num : Nat → Bytes) : BlockForger AesNonce → Gcm.Forger
  | .stop => .stop
  | .ask uid i p n next =>
    if p = [] ∨ max < p.length then (next none).forger max num else .ask n.val (uid ++ num i) p fun c => (next (some (n.val ++ c))).forger max num
  | .submit uid i c next =>
    if c.length < 28 ∨ max + 28 < c.length then (next none).forger max num
    else .submit (c.take 12) (uid ++ num i) (c.drop 12) fun m => (next m).forger max num

/-- The guesser of blocks as a guesser of ciphertexts, likewise. -/
def BlockGuesser.guesser (max : Nat) (num : Nat → Bytes) : BlockGuesser AesNonce → Gcm.Guesser
  | .guess b => .guess b
  | .ask uid i p₀ p₁ n next =>
    if p₀ = [] ∨ max < p₀.length then (next none).guesser max num
    else .ask n.val (uid ++ num i) p₀ p₁ fun c => (next (some (n.val ++ c))).guesser max num

end Abe
