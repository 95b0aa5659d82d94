import Verif.Model.Ffi

/-!
# Messages which tell nothing but sizes

For property C99: the texts of errors which reading a key, a ciphertext, a header or a block may give.
-/

namespace Abe

/-- The texts saying that there are only `k` bytes left where an element should be. -/
def shortTexts (k : Nat) : List String :=
  ["invalid size: Invalid scalar element (size " ++ toString k ++ ", expected size at least: 32 bytes long), unable to deserialize this scalar element.",
   "invalid size: Invalid G1 element (size " ++ toString k ++ ", compressed expected size at least: 48 bytes long), unable to deserialize this G1 element.",
   "invalid size: Invalid G2 element (size " ++ toString k ++ ", compressed expected size at least: 96 bytes long), unable to deserialize this G2 element.",
   "invalid size: Invalid Gt element (size " ++ toString k ++ ", compressed expected size at least: 288 bytes long), unable to deserialize this Gt element."]

/-- The texts without any number. -/
def plainTexts : List String :=
  ["deserializing element failed. Data are too small. Data altered?", "deserializing element failed. Data altered?",
   "cannot deserialize u32 element since input bytes size is less than 4 bytes", "Failed deserializing scalar", "Error deserializing G1Affine",
   "Error deserializing G2Affine", "Error deserializing Gt", "error deserializing MSP, leaf already inserted",
   "invalid size: minimum len of 8 bytes is required for MSP", "invalid size: invalid MSP size read from bytes",
   "invalid size: invalid matrix size read from bytes", "Empty private key"]

/-- What may be said about `n` bytes of a key or a ciphertext. -/
def SaysOfBytes (n : Nat) (text : String) : Prop := text ∈ plainTexts ∨ ∃ k ≤ n, text ∈ shortTexts k

/-- What may be said about a header of `n` bytes: a header is too short, an element of the ciphertext cannot be read, the key does not open it, or something is
wrong with the sizes or the symmetric part (`other`). -/
def SaysOfHeader (other : String) (n : Nat) (text : String) : Prop :=
  SaysOfBytes n text ∨ text = "Header length must be at least 4 bytes. Found " ++ toString n ∨ text = "empty input matrix" ∨ text = "invalid encrypted data" ∨
  text = other

/-- What may be said about a block of `n` bytes, for blocks of at most `max` bytes. -/
def SaysOfBlock (max n : Nat) (text : String) : Prop :=
  text = "Empty ciphertext" ∨
  text = "invalid size: The encrypted data to decrypt is too large: " ++ toString n ++ " bytes, max size: " ++ toString max ++ " "

/-- Errors of the symmetric library. -/
inductive External.Reports {Key Nonce : Type} (e : External Key Nonce) (x : FormatErr) : Prop
  | key (b : Bytes) (h : e.keyDec b = .err x)
  | nonce (b : Bytes) (h : e.nonceDec b = .err x)
  | decrypt (k : Key) (b : Bytes) (n : Nonce) (h : e.decrypt k b n none = .err x)
  | block (max : Nat) (k : Key) (uid : Bytes) (i : Nat) (b : Bytes) (h : e.blockDec max k uid i b = .err x)

/-- What the C interface may say when asked to decrypt a header of `n` bytes with a key of `m` bytes. -/
inductive SaysOfCall {Key Nonce : Type} (e : External Key Nonce) (x : Texts) (n m : Nat) : FfiError → Prop
  | null (what : String) (h : what ∈ ["Symmetric key pointer should point to pre-allocated memory", "Encrypted header bytes pointer should not be bull",
      "The user decryption key pointer should not be null"]) : SaysOfCall e x n m (.nullPointer (utf8 what))
  | empty (what : String) (h : what ∈ ["The symmetric key buffer should have a size greater than zero",
      "The encrypted header bytes size should be greater than zero", "The user decryption key should not be empty"]) : SaysOfCall e x n m (.generic (utf8 what))
  | small (what : String) (h : what ∈ ["symmetric key", "uid", "additional_data"]) (k : Nat) :
      SaysOfCall e x n m (.generic (utf8 ("The pre-allocated " ++ what ++ " buffer is too small; need " ++ toString k ++ " bytes")))
  | unknown (handle : Int32) : SaysOfCall e x n m (.generic (utf8 ("Hybrid Cipher: no decryption cache with handle: " ++ toString handle.toInt)))
  | key (text : String) (h : SaysOfBytes m text) : SaysOfCall e x n m (.generic (utf8 text))
  | header (text : String) (h : SaysOfHeader (x.other (some .cryptoError)) n text) : SaysOfCall e x n m (.generic (utf8 text))
  | library (y : FormatErr) (h : e.Reports y) : SaysOfCall e x n m (.generic (utf8 (y.text x)))

/-- What may be said about a clear text of `n` bytes, for blocks of at most `max` bytes. -/
def SaysOfClearText (max n : Nat) (text : String) : Prop :=
  text = "Empty plaintext" ∨ text = "invalid size: The data to encrypt is too large: " ++ toString n ++ " bytes, max size: " ++ toString max ++ " "

/-- What the C interface may say when asked to encrypt or decrypt a block: about pointers, empty buffers, and an output buffer too small; a text of `Data` on the
data; or an error of the symmetric library (`Library`). -/
inductive SaysOfBlockCall (Data : String → Prop) (Library : FormatErr → Prop) (x : Texts) : FfiError → Prop
  | null (what : String) (h : what ∈ ["The clear text bytes pointer should point to pre-allocated memory",
      "The encrypted bytes pointer should point to pre-allocated memory", "Symmetric Key pointer should not be null", "Data pointer should not be null"]) :
      SaysOfBlockCall Data Library x (.nullPointer (utf8 what))
  | empty (what : String) (h : what ∈ ["The clear text bytes buffer should have a size greater than zero",
      "The encrypted bytes buffer should have a size greater than zero", "The Symmetric Key should not be empty", "The data should not be empty"]) :
      SaysOfBlockCall Data Library x (.generic (utf8 what))
  | small (what : String) (h : what ∈ ["clear text", "encrypted bytes"]) (k : Nat) :
      SaysOfBlockCall Data Library x (.generic (utf8 ("The pre-allocated " ++ what ++ " buffer is too small; need " ++ toString k ++ " bytes")))
  | data (text : String) (h : Data text) : SaysOfBlockCall Data Library x (.generic (utf8 text))
  | library (y : FormatErr) (h : Library y) : SaysOfBlockCall Data Library x (.generic (utf8 (y.text x)))

/-- What the C interface may say when asked to keep a user key of `m` bytes: `debug` is the rendering of an error by `{:?}`. -/
inductive SaysOfCache (debug : FormatErr → Bytes) (x : Texts) (m : Nat) : FfiError → Prop
  | null : SaysOfCache debug x m (.nullPointer (utf8 "User decryption key pointer should not be null"))
  | empty : SaysOfCache debug x m (.generic (utf8 "The user decryption key should not be empty"))
  | key (y : FormatErr) (h : SaysOfBytes m (y.text x)) :
      SaysOfCache debug x m (.generic (utf8 "Hybrid Cipher: invalid user decryption key: " ++ debug y))

end Abe
