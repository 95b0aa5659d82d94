import Verif.Model.Hybrid

/-!
# What is expected of hybrid encryption

The assumptions on the external symmetric scheme, and a description of byte layouts that does not use the model's encoders.
-/

namespace Abe

variable {Key Nonce : Type}

/-- The number denoted by big-endian bytes. -/
def bigEndian (b : Bytes) : Nat := b.foldl (fun n x => 256 * n + x.toNat) 0

/-- Four bytes announcing the length of `body`. -/
def Announces (head body : Bytes) : Prop := head.length = 4 ∧ bigEndian head = body.length

/-- The assumptions on the external functions: sizes, inverse functions, and absence of panics.  `tag` is the authentication
overhead of `S::encrypt`. -/
structure External.Lawful (e : External Key Nonce) (tag : Nat) : Prop where
  shake_length : ∀ b n, (e.shake b n).length = n
  keyLen_lt : e.keyLen < 2 ^ 32
  keyEnc_length : ∀ k, (e.keyEnc k).length = e.keyLen
  keyDec_keyEnc : ∀ k, e.keyDec (e.keyEnc k) = .ok k
  keyDec_size : ∀ b, b.length = e.keyLen → ∃ k, e.keyDec b = .ok k ∧ e.keyEnc k = b
  keyDec_other : ∀ b, b.length ≠ e.keyLen → ∃ x, e.keyDec b = .err x
  nonceEnc_length : ∀ n, (e.nonceEnc n).length = e.nonceLen
  nonceDec_nonceEnc : ∀ n, e.nonceDec (e.nonceEnc n) = .ok n
  nonceDec_total : ∀ b, e.nonceDec b ≠ .panic
  encrypt_length : ∀ k m n a c, e.encrypt k m n a = .ok c → c.length = m.length + tag
  decrypt_encrypt : ∀ k m n a c, e.encrypt k m n a = .ok c → e.decrypt k c n a = .ok m
  encrypt_total : ∀ k m n a, e.encrypt k m n a ≠ .panic
  decrypt_total : ∀ k m n a, e.decrypt k m n a ≠ .panic
  metaEnc_total : ∀ m, e.metaEnc m ≠ .panic
  metaDec_total : ∀ b, e.metaDec b ≠ .panic
  block : ∀ max k uid i (p : Bytes) n c, p ≠ [] → p.length ≤ max → e.blockEnc max k uid i p n = .ok c →
    c.length = p.length + e.overhead ∧ e.blockDec max k uid i c = .ok p
  block_total : ∀ max k uid i (p : Bytes) n, p ≠ [] → p.length ≤ max → p.length ≤ 2 ^ 32 → uid.length ≤ 2 ^ 32 → ∃ c, e.blockEnc max k uid i p n = .ok c

/-- The metadata survives its own encoding (for the metadata given by the user). -/
def External.Keeps (e : External Key Nonce) (m : Metadata) : Prop := ∃ b, e.metaEnc m = .ok b ∧ e.metaDec b = .ok m

/-- `b` and `b'` differ only in trailing zero bytes. -/
def SameUpToZeros (b b' : Bytes) : Prop :=
  ∃ (c : Bytes) (i j : Nat), b = c ++ List.replicate i 0 ∧ b' = c ++ List.replicate j 0

end Abe
