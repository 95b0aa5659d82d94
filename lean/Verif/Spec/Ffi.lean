import Verif.Model.Ffi
import Verif.Spec.Policy
import Verif.Spec.Hybrid

/-!
# Specification of the C interface

What callers are told about buffers, errors and handles, in terms of what they observe: return code, their memory, later calls.
-/

namespace Abe

/-- A call refused without effect: it returns 1, records an error, and changes nothing else. -/
def Refused {E D : Type} (call : Prog E D Int32) (s : FState E D) : Prop :=
  ∃ e, call.run s = (.ret 1, ⟨some e, s.enc, s.dec, s.mem⟩)

/-- How a call uses the last error of its thread: it never looks at it.  When the call returns 0 the last error is kept; when it returns 1
the last error is replaced by an error of this call; a call which does not return keeps it. -/
def ReportsErrors {E D : Type} (call : Prog E D Int32) : Prop :=
  ∀ s : FState E D,
    (∃ s' : FState E D, ∀ e, call.run { s with err := e } = (.ret 0, { s' with err := e })) ∨
    (∃ (s' : FState E D) (e' : FfiError), ∀ e, call.run { s with err := e } = (.ret 1, { s' with err := some e' })) ∨
    (∃ s' : FState E D, ∀ e, call.run { s with err := e } = (.panic, { s' with err := e })) ∨
    (∃ s' : FState E D, ∀ e, call.run { s with err := e } = (.ub, { s' with err := e }))

/-- What `get_last_error` writes in a buffer of memory `mem` and size `n`: the beginning of the message, and zeros. -/
def errorBuffer (text mem : Bytes) (n : Nat) : Bytes :=
  text.take (n - 1) ++ List.replicate (n - (text.take (n - 1)).length) 0 ++ mem.drop n

/-- Nothing but the last error and the output buffer `k` differs. -/
def OnlySlot {E D : Type} (k : Slot) (s s' : FState E D) : Prop :=
  s'.enc = s.enc ∧ s'.dec = s.dec ∧ s'.mem.handle = s.mem.handle ∧ ∀ k', k' ≠ k → s'.mem.slots k' = s.mem.slots k'

/-- The value `n` of a C integer is the number `l`, if `l` can be represented. -/
def ReportsLen (n : Int32) (l : Nat) : Prop := l < 2 ^ 31 → n.toInt = l

/-- The first number written in base ten in a text. -/
def firstNumber (text : Bytes) : Option Nat :=
  let digit (c : UInt8) : Bool := 48 ≤ c && c ≤ 57
  match (text.dropWhile fun c => !digit c).takeWhile digit with
  | [] => none
  | ds => some (ds.foldl (fun n c => 10 * n + (c.toNat - 48)) 0)

/-- The last error tells that `n` bytes are needed: it is the first number of its text. -/
def SaysSize {E D : Type} (s : FState E D) (n : Nat) : Prop := ∃ e, s.err = some e ∧ firstNumber e.text = some n

/-- The call returns the bytes `b` in the output buffer `k`, of capacity `n` and memory `m`:

* an empty buffer is refused;
* a buffer which is too small is refused, its memory is unchanged and the length needed is reported;
* otherwise exactly `b` is written at its start, and its length is reported;
* a negative capacity is not seen as too small: `b` is written whatever the memory is (undefined behaviour if it is too small). -/
structure Delivers {E D : Type} (t : Target) (call : Prog E D Int32) (k : Slot) (b : Bytes) : Prop where
  zero : ∀ s m, s.mem.slots k = ⟨some m, some 0⟩ → Refused call s
  small : ∀ s m, ∀ n : Int32, s.mem.slots k = ⟨some m, some n⟩ → 0 < n.toInt → n.toInt < b.length →
    ∃ s', ∃ n' : Int32, call.run s = (.ret 1, s') ∧ s'.err.isSome ∧ OnlySlot k s s' ∧ s'.mem.slots k = ⟨some m, some n'⟩ ∧
      ReportsLen n' b.length
  fits : ∀ s m, ∀ n : Int32, s.mem.slots k = ⟨some m, some n⟩ → 0 < n.toInt → b.length ≤ n.toInt → b.length ≤ m.length →
    ∃ s', ∃ n' : Int32, call.run s = (.ret 0, s') ∧ s'.err = s.err ∧ OnlySlot k s s' ∧
      s'.mem.slots k = ⟨some (b ++ m.drop b.length), some n'⟩ ∧ ReportsLen n' b.length
  negative : ∀ s m, ∀ n : Int32, s.mem.slots k = ⟨some m, some n⟩ → n.toInt < 0 → b.length + 2 ^ 31 ≤ t.modulus →
    (b.length ≤ m.length → ∃ s', ∃ n' : Int32, call.run s = (.ret 0, s') ∧ OnlySlot k s s' ∧
      s'.mem.slots k = ⟨some (b ++ m.drop b.length), some n'⟩ ∧ ReportsLen n' b.length) ∧
    (m.length < b.length → (call.run s).1 = .ub)

/-- The call returns the bytes `b` in the output buffer `k`, but does not report the length needed when the buffer is too small: then it is
refused without effect, and only the text of the error tells the length. -/
structure DeliversSilently {E D : Type} (t : Target) (call : Prog E D Int32) (k : Slot) (b : Bytes) : Prop where
  zero : ∀ s m, s.mem.slots k = ⟨some m, some 0⟩ → Refused call s
  small : ∀ s m, ∀ n : Int32, s.mem.slots k = ⟨some m, some n⟩ → 0 < n.toInt → n.toInt < b.length →
    Refused call s ∧ SaysSize (call.run s).2 b.length
  fits : ∀ s m, ∀ n : Int32, s.mem.slots k = ⟨some m, some n⟩ → 0 < n.toInt → b.length ≤ n.toInt → b.length ≤ m.length →
    ∃ s', ∃ n' : Int32, call.run s = (.ret 0, s') ∧ s'.err = s.err ∧ OnlySlot k s s' ∧
      s'.mem.slots k = ⟨some (b ++ m.drop b.length), some n'⟩ ∧ ReportsLen n' b.length
  negative : ∀ s m, ∀ n : Int32, s.mem.slots k = ⟨some m, some n⟩ → n.toInt < 0 → b.length + 2 ^ 31 ≤ t.modulus →
    (b.length ≤ m.length → ∃ s', ∃ n' : Int32, call.run s = (.ret 0, s') ∧ OnlySlot k s s' ∧
      s'.mem.slots k = ⟨some (b ++ m.drop b.length), some n'⟩ ∧ ReportsLen n' b.length) ∧
    (m.length < b.length → (call.run s).1 = .ub)

/-- The buffer is large enough for `x`. -/
def OutBuf.Room (b : OutBuf) (x : Bytes) : Prop :=
  ∃ m, ∃ n : Int32, b = ⟨some m, some n⟩ ∧ 0 < n.toInt ∧ x.length ≤ n.toInt ∧ x.length ≤ m.length

/-- The buffer is too small for `x`. -/
def OutBuf.TooSmall (b : OutBuf) (x : Bytes) : Prop := ∃ m, ∃ n : Int32, b = ⟨some m, some n⟩ ∧ 0 < n.toInt ∧ n.toInt < x.length

/-- The buffer is given and not empty. -/
def OutBuf.Given (b : OutBuf) : Prop := ∃ m, ∃ n : Int32, b = ⟨some m, some n⟩ ∧ n ≠ 0

/-- The optional output is not wanted: null pointer, or length not positive. -/
def OutBuf.Unwanted (b : OutBuf) : Prop := b.mem = none ∨ ∃ n : Int32, b.len = some n ∧ n.toInt ≤ 0

/-- Exactly `x` has been written at the start of the buffer `b`, and its length is reported. -/
def OutBuf.Filled (b : OutBuf) (x : Bytes) (b' : OutBuf) : Prop :=
  ∃ m, ∃ n : Int32, b.mem = some m ∧ b' = ⟨some (x ++ m.drop x.length), some n⟩ ∧ ReportsLen n x.length

/-- The length of `x` is reported, the memory is unchanged. -/
def OutBuf.Told (b : OutBuf) (x : Bytes) (b' : OutBuf) : Prop :=
  ∃ n : Int32, b' = ⟨b.mem, some n⟩ ∧ ReportsLen n x.length

/-- Nothing but the last error and the output buffers `ks` differs. -/
def OnlySlots {E D : Type} (ks : List Slot) (s s' : FState E D) : Prop :=
  s'.enc = s.enc ∧ s'.dec = s.dec ∧ s'.mem.handle = s.mem.handle ∧ ∀ k', k' ∉ ks → s'.mem.slots k' = s.mem.slots k'

/-- In the states `S`, the call returns a symmetric key `kb` and a header `hb` in its two buffers.  When the header buffer is too small, the
call fails though it has already written the key. -/
structure DeliversHeader {E D : Type} (S : FState E D → Prop) (call : Prog E D Int32) (kb hb : Bytes) : Prop where
  keySmall : ∀ s, S s → (s.mem.slots .symKey).TooSmall kb → (s.mem.slots .header).Given →
    ∃ s', call.run s = (.ret 1, s') ∧ SaysSize s' kb.length ∧ OnlySlots [.symKey] s s' ∧
      (s.mem.slots .symKey).Told kb (s'.mem.slots .symKey)
  headerSmall : ∀ s, S s → (s.mem.slots .symKey).Room kb → (s.mem.slots .header).TooSmall hb →
    ∃ s', call.run s = (.ret 1, s') ∧ SaysSize s' hb.length ∧ OnlySlots [.symKey, .header] s s' ∧
      (s.mem.slots .symKey).Filled kb (s'.mem.slots .symKey) ∧ (s.mem.slots .header).Told hb (s'.mem.slots .header)
  fits : ∀ s, S s → (s.mem.slots .symKey).Room kb → (s.mem.slots .header).Room hb →
    ∃ s', call.run s = (.ret 0, s') ∧ s'.err = s.err ∧ OnlySlots [.symKey, .header] s s' ∧
      (s.mem.slots .symKey).Filled kb (s'.mem.slots .symKey) ∧ (s.mem.slots .header).Filled hb (s'.mem.slots .header)

/-- A buffer given with a positive capacity, and memory of that capacity. -/
def OutBuf.Usable (b : OutBuf) : Prop := ∃ m, ∃ n : Int32, b = ⟨some m, some n⟩ ∧ 0 < n.toInt ∧ n.toInt ≤ m.length

/-- What the caller reads in the buffer after a call: as many bytes as the reported length. -/
def OutBuf.Holds (b : OutBuf) (x : Bytes) : Prop := ∃ m, ∃ n : Int32, b = ⟨some m, some n⟩ ∧ 0 ≤ n.toInt ∧ x = m.take n.toInt.toNat

/-- The call succeeded from `s`, and the caller reads `x` in the buffer `k`. -/
def Gives {E D : Type} (call : Prog E D Int32) (s : FState E D) (k : Slot) (x : Bytes) : Prop :=
  (s.mem.slots k).Usable ∧ (call.run s).1 = .ret 0 ∧ ((call.run s).2.mem.slots k).Holds x

/-- What becomes of the buffer for additional data: unchanged if unwanted, of length 0 if there is none, otherwise filled. -/
def OutBuf.GetsAdditional (b : OutBuf) (ad : Option Bytes) (b' : OutBuf) : Prop :=
  (b.Unwanted ∧ b' = b) ∨
  (¬ b.Unwanted ∧ match ad with
    | some x => b.Filled x b'
    | none => b' = ⟨b.mem, some 0⟩)

/-- What becomes of the buffer for the identifier: unchanged if unwanted, otherwise filled. -/
def OutBuf.GetsUid (b : OutBuf) (x : Bytes) (b' : OutBuf) : Prop :=
  (b.Unwanted ∧ b' = b) ∨ (¬ b.Unwanted ∧ b.Filled x b')

/-- In the states `S`, the call returns a symmetric key `kb`, an identifier and additional data.  The outputs before the one which does not
fit are written though the call fails. -/
structure DeliversClearHeader {E D : Type} (S : FState E D → Prop) (call : Prog E D Int32) (kb uid : Bytes) (ad : Option Bytes) :
    Prop where
  keySmall : ∀ s, S s → (s.mem.slots .symKey).TooSmall kb →
    ∃ s', call.run s = (.ret 1, s') ∧ SaysSize s' kb.length ∧ OnlySlots [.symKey] s s' ∧
      (s.mem.slots .symKey).Told kb (s'.mem.slots .symKey)
  uidSmall : ∀ s, S s → (s.mem.slots .symKey).Room kb → (s.mem.slots .uid).TooSmall uid →
    ∃ s', call.run s = (.ret 1, s') ∧ SaysSize s' uid.length ∧ OnlySlots [.symKey, .uid] s s' ∧
      (s.mem.slots .symKey).Filled kb (s'.mem.slots .symKey) ∧ (s.mem.slots .uid).Told uid (s'.mem.slots .uid)
  additionalSmall : ∀ s x, S s → ad = some x → (s.mem.slots .symKey).Room kb →
    ((s.mem.slots .uid).Unwanted ∨ (s.mem.slots .uid).Room uid) → (s.mem.slots .additional).TooSmall x →
    ∃ s', call.run s = (.ret 1, s') ∧ SaysSize s' x.length ∧ OnlySlots [.symKey, .uid, .additional] s s' ∧
      (s.mem.slots .symKey).Filled kb (s'.mem.slots .symKey) ∧ (s.mem.slots .uid).GetsUid uid (s'.mem.slots .uid) ∧
      (s.mem.slots .additional).Told x (s'.mem.slots .additional)
  fits : ∀ s, S s → (s.mem.slots .symKey).Room kb →
    ((s.mem.slots .uid).Unwanted ∨ (s.mem.slots .uid).Room uid) →
    ((s.mem.slots .additional).Unwanted ∨ (s.mem.slots .additional).Room (ad.getD [])) →
    ∃ s', call.run s = (.ret 0, s') ∧ s'.err = s.err ∧ OnlySlots [.symKey, .uid, .additional] s s' ∧
      (s.mem.slots .symKey).Filled kb (s'.mem.slots .symKey) ∧ (s.mem.slots .uid).GetsUid uid (s'.mem.slots .uid) ∧
      (s.mem.slots .additional).GetsAdditional ad (s'.mem.slots .additional)

/-- In the states `S`, the call never succeeds and never writes an output. -/
def NeverWritesOn {E D : Type} (S : FState E D → Prop) (call : Prog E D Int32) : Prop :=
  ∀ s, S s → (call.run s).1 ≠ .ret 0 ∧ (call.run s).2.mem = s.mem

/-- The call never succeeds and never writes an output, whatever the buffers are. -/
def NeverWrites {E D : Type} (call : Prog E D Int32) : Prop :=
  ∀ s, (call.run s).1 ≠ .ret 0 ∧ (call.run s).2.mem = s.mem

/-- The C string `s` is at the address. -/
def IsCStr (p : Option Bytes) (s : Bytes) : Prop := ∃ rest, p = some (s ++ 0 :: rest) ∧ 0 ∉ s

/-- The announced bytes `x` are at the address. -/
def IsIn (b : InBuf) (x : Bytes) : Prop := ∃ rest, b.mem = some (x ++ rest) ∧ b.len.toInt = x.length

/-- A pointer with a length which is null or points to at least the announced number of bytes. -/
def InBuf.Honest (b : InBuf) : Prop := b.mem = none ∨ ∃ x, IsIn b x

/-- A pointer which is null or points to a C string. -/
def HonestStr (p : Option Bytes) : Prop := p = none ∨ ∃ s, IsCStr p s

/-- A null pointer, or a zero length. -/
def InBuf.Missing (b : InBuf) : Prop := b.mem = none ∨ b.len = 0

/-- A null pointer, or a zero capacity behind the length pointer. -/
def OutBuf.Missing (b : OutBuf) : Prop := b.mem = none ∨ b.len = some 0

/-- A mandatory argument of the call is a null pointer or has a zero length (except the pointers to lengths and to the handle, and the
arguments of `get_last_error`). -/
def MissingArgument {K Gt Nonce : Type} (m : CMem) : FCall K Gt Nonce → Prop
  | .setError msg => msg = none
  | .generateMasterKeys p _ _ => (m.slots .out).Missing ∨ p = none
  | .generateUserPrivateKey priv ap p _ => (m.slots .out).Missing ∨ priv.Missing ∨ ap = none ∨ p = none
  | .rotateAttributes a p => (m.slots .out).Missing ∨ a = none ∨ p = none
  | .createEncryptionCache a => a.policy = none ∨ a.publicKey.Missing
  | .encryptHeaderUsingCache _ a => (m.slots .symKey).Missing ∨ (m.slots .header).Missing ∨ a.attributes = none
  | .encryptHeader c a => (m.slots .symKey).Missing ∨ (m.slots .header).Missing ∨ c.policy = none ∨ c.publicKey.Missing ∨
      a.attributes = none
  | .createDecryptionCache k => k.Missing
  | .decryptHeaderUsingCache hd _ => (m.slots .symKey).Missing ∨ hd.Missing
  | .decryptHeader hd k => (m.slots .symKey).Missing ∨ hd.Missing ∨ k.Missing
  | .getEncryptedHeaderSize e => e.Missing
  | .encryptBlock a _ => (m.slots .out).Missing ∨ a.key.Missing ∨ a.data.Missing
  | .decryptBlock a => (m.slots .out).Missing ∨ a.key.Missing ∨ a.data.Missing
  | _ => False

/-- The length pointers of the buffers which are given are not null. -/
def CMem.LengthsGiven (m : CMem) : Prop := ∀ k, (m.slots k).mem ≠ none → (m.slots k).len ≠ none

/-- The input buffers of the call contain the announced bytes. -/
def HonestInputs {K Gt Nonce : Type} : FCall K Gt Nonce → Prop
  | .encryptBlock a _ => a.key.Honest ∧ a.uid.Honest
  | .decryptBlock a => a.key.Honest ∧ a.uid.Honest
  | _ => True

/-- The C string at the address `p` is UTF-8 and decodes to `a`. -/
def StrArg {α : Type} (p : Option Bytes) (dec : Bytes → Option α) (a : α) : Prop :=
  ∃ s, IsCStr p s ∧ validUtf8 s = true ∧ dec s = some a

/-- The announced bytes are not empty and decode to `a`. -/
def BytesArg {α : Type} (b : InBuf) (dec : Bytes → Out α) (a : α) : Prop :=
  ∃ x, IsIn b x ∧ x ≠ [] ∧ dec x = .ok a

/-- The identifier argument: nothing if it is missing. -/
def UidArg (b : InBuf) (uid : Bytes) : Prop := (b.Missing ∧ uid = []) ∨ (¬ b.Missing ∧ IsIn b uid)

/-- The additional data argument: absent if it is missing. -/
def AdditionalArg (b : InBuf) (ad : Option Bytes) : Prop := (b.Missing ∧ ad = none) ∨ (¬ b.Missing ∧ ∃ x, IsIn b x ∧ ad = some x)

/-- The identifier argument of the block functions: nothing if it is a null pointer or its length is not positive. -/
def BlockUidArg (b : InBuf) (uid : Bytes) : Prop :=
  ((b.mem = none ∨ b.len.toInt ≤ 0) ∧ uid = []) ∨ (0 < b.len.toInt ∧ IsIn b uid)

section
variable {K G1 G2 G3 Gt Key Nonce : Type} [Field K] [DecidableEq K] (lib : FfiLib K G1 G2 G3 Gt Key Nonce)

/-- The cache made from the arguments: the decoded policy and public key. -/
def EncCacheArgs.Decodes (a : EncCacheArgs) (c : EncryptionCache G2 Gt) : Prop :=
  StrArg a.policy lib.serde.policyDec c.policy ∧ BytesArg a.publicKey (pubKeyCodec lib.t lib.cs).dec c.publicKey

/-- The key decoded from the argument. -/
def KeyDecodes (b : InBuf) (key : DecryptionKey K G1 G3) : Prop := BytesArg b (userKeyCodec lib.t lib.cs lib.bm).dec key

/-- `b` is the answer to a request of master keys: the length of the private key on 4 bytes, the private key, the public key, for keys
generated for the policy. -/
def MasterKeysAnswer (policy : Option Bytes) (rnd : Nat → K) (y : K) (b : Bytes) : Prop :=
  ∃ p mk head priv pub, StrArg policy lib.serde.policyDec p ∧ engineGenerateMasterKey lib.bm p rnd y = .ok mk ∧
    (privKeyCodec lib.t lib.cs).enc mk.privKey = .ok priv ∧ (pubKeyCodec lib.t lib.cs).enc mk.pubKey = .ok pub ∧
    head.length = 4 ∧ bigEndian head = priv.length % 2 ^ 32 ∧ b = head ++ priv ++ pub

/-- `b` is the answer to a request of a user key: the bytes of a key generated for the access policy with the master private key. -/
def UserKeyAnswer (priv : InBuf) (accessPolicy policy : Option Bytes) (rnd : Nat → K) (b : Bytes) : Prop :=
  ∃ p sk ap key, StrArg policy lib.serde.policyDec p ∧ BytesArg priv (privKeyCodec lib.t lib.cs).dec sk ∧
    StrArg accessPolicy lib.serde.accessPolicyDec ap ∧ engineGenerateUserKey lib.bm p sk ap rnd = .ok key ∧
    (userKeyCodec lib.t lib.cs lib.bm).enc key = .ok b

/-- `b` is the answer to a request of rotations: the policy after all of them. -/
def RotationAnswer (attributes policy : Option Bytes) (b : Bytes) : Prop :=
  ∃ p atts p', StrArg policy lib.serde.policyDec p ∧ StrArg attributes lib.serde.attributesDec atts ∧
    Policy.Rotations p atts p' ∧ lib.serde.policyEnc p' = some b

/-- `kb` and `hb` are the answer to a request of encryption of a header with a policy and a public key: the bytes of the symmetric key, and
the header for the attributes, holding the identifier and the additional data. -/
def HeaderAnswer (c : EncryptionCache G2 Gt) (a : EncHeaderArgs K Gt Nonce) (kb hb : Bytes) : Prop :=
  ∃ atts uid ad h, StrArg a.attributes lib.serde.attributesDec atts ∧ UidArg a.uid uid ∧ AdditionalArg a.additional ad ∧
    encryptHybridHeader lib.e lib.bm lib.cs lib.t c.policy c.publicKey atts (some { uid := uid, additionalData := ad })
      a.random a.s a.nonce = .ok h ∧
    kb = lib.e.keyEnc h.symmetricKey ∧ hb = h.encryptedHeaderBytes

/-- `kb`, `uid` and `ad` are the answer to a request of decryption of a header with a user key. -/
def ClearHeaderAnswer (key : DecryptionKey K G1 G3) (header : InBuf) (kb uid : Bytes) (ad : Option Bytes) : Prop :=
  ∃ h, BytesArg header (decryptHybridHeader lib.e lib.bm lib.cs lib.t key) h ∧
    kb = lib.e.keyEnc h.symmetricKey ∧ uid = h.metaData.uid ∧ ad = h.metaData.additionalData

/-- `b` is the answer to a request of encryption of a block. -/
def BlockAnswer (a : BlockArgs) (nonce : Nonce) (b : Bytes) : Prop :=
  ∃ key uid data, BytesArg a.key lib.e.keyDec key ∧ BlockUidArg a.uid uid ∧ IsIn a.data data ∧ data ≠ [] ∧
    encryptHybridBlock lib.e maxClearTextSize key uid (asUsize lib.t a.blockNumber) data nonce = .ok b

/-- `b` is the answer to a request of decryption of a block. -/
def ClearBlockAnswer (a : BlockArgs) (b : Bytes) : Prop :=
  ∃ key uid data, BytesArg a.key lib.e.keyDec key ∧ BlockUidArg a.uid uid ∧ IsIn a.data data ∧ data ≠ [] ∧
    decryptHybridBlock lib.e maxClearTextSize key uid (asUsize lib.t a.blockNumber) data = .ok b

end

/-- A thread which is not in the middle of a call. -/
def Sys.Idle {E D : Type} (s : Sys E D) (τ : Thread) : Prop := s.pendEnc τ = none ∧ s.pendDec τ = none

section
variable {K G1 G2 G3 Gt Key Nonce : Type} [Field K] [DecidableEq K] (lib : FfiLib K G1 G2 G3 Gt Key Nonce)

/-- The number of creations of encryption caches begun in a history. -/
def encCreations : List (Thread × FEvent K Gt Nonce) → Nat
  | [] => 0
  | (_, .call (.createEncryptionCache _) _) :: es => encCreations es + 1
  | _ :: es => encCreations es

/-- The number of creations of decryption caches begun in a history. -/
def decCreations : List (Thread × FEvent K Gt Nonce) → Nat
  | [] => 0
  | (_, .call (.createDecryptionCache _) _) :: es => decCreations es + 1
  | _ :: es => decCreations es

/-- The creation of a cache, whose result is the handle `h`: after the history `L1`, thread `τ` calls the function `c` and is not refused;
then other threads work (`L2`, where `τ` does not finish); then `τ` finishes, and the call returns 0 with `h` behind the handle
pointer. -/
def CreatesHandle (L1 : List (Thread × FEvent K Gt Nonce)) (τ : Thread) (c : FCall K Gt Nonce) (m : CMem)
    (L2 : List (Thread × FEvent K Gt Nonce)) (h : Int32) : Prop :=
  (frun lib Sys.init L1).Idle τ ∧
  (fstep lib (frun lib Sys.init L1) τ (.call c m)).2 = none ∧
  (τ, FEvent.finish) ∉ L2 ∧
  ∃ m', (fstep lib (frun lib Sys.init (L1 ++ (τ, .call c m) :: L2)) τ .finish).2 = some (.ret 0, m') ∧ m'.handle = some h

/-- No thread destroys the encryption cache `h` during `L`, after `L0`: calls of threads in the middle of a creation do not count, these
threads can only finish it. -/
def KeptEnc (L0 : List (Thread × FEvent K Gt Nonce)) (h : Int32) (L : List (Thread × FEvent K Gt Nonce)) : Prop :=
  ∀ Ld τ m Le, L = Ld ++ (τ, FEvent.call (.destroyEncryptionCache h) m) :: Le → ¬ (frun lib Sys.init (L0 ++ Ld)).Idle τ

/-- No thread destroys the decryption cache `h` during `L`, after `L0`. -/
def KeptDec (L0 : List (Thread × FEvent K Gt Nonce)) (h : Int32) (L : List (Thread × FEvent K Gt Nonce)) : Prop :=
  ∀ Ld τ m Le, L = Ld ++ (τ, FEvent.call (.destroyDecryptionCache h) m) :: Le → ¬ (frun lib Sys.init (L0 ++ Ld)).Idle τ

/-- The history `L`, up to the end of the creation. -/
def untilCreated (L1 : List (Thread × FEvent K Gt Nonce)) (τ : Thread) (c : FCall K Gt Nonce) (m : CMem)
    (L2 : List (Thread × FEvent K Gt Nonce)) : List (Thread × FEvent K Gt Nonce) :=
  L1 ++ (τ, .call c m) :: L2 ++ [(τ, .finish)]

/-- In the history `L`, the handle `h` has been given for an encryption cache of arguments `a`, and not been destroyed since. -/
def EncHandle (L : List (Thread × FEvent K Gt Nonce)) (h : Int32) (a : EncCacheArgs) : Prop :=
  ∃ L1 τ m L2 L3, L = untilCreated L1 τ (.createEncryptionCache a) m L2 ++ L3 ∧
    CreatesHandle lib L1 τ (.createEncryptionCache a) m L2 h ∧ KeptEnc lib (untilCreated L1 τ (.createEncryptionCache a) m L2) h L3

/-- In the history `L`, the handle `h` has been given for a decryption cache of argument `a`, and not been destroyed since. -/
def DecHandle (L : List (Thread × FEvent K Gt Nonce)) (h : Int32) (a : InBuf) : Prop :=
  ∃ L1 τ m L2 L3, L = untilCreated L1 τ (.createDecryptionCache a) m L2 ++ L3 ∧
    CreatesHandle lib L1 τ (.createDecryptionCache a) m L2 h ∧ KeptDec lib (untilCreated L1 τ (.createDecryptionCache a) m L2) h L3

/-- The creations are given a pointer for the handle. -/
def HandlesWanted (L : List (Thread × FEvent K Gt Nonce)) : Prop :=
  (∀ τ a m, (τ, FEvent.call (.createEncryptionCache a) m) ∈ L → m.handle ≠ none) ∧
  ∀ τ k m, (τ, FEvent.call (.createDecryptionCache k) m) ∈ L → m.handle ≠ none

end

end Abe
