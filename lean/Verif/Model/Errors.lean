import Verif.Model.Res

/-!
# Texts of errors

`Display` of the error types of /repo/src/error.rs.
-/

namespace Abe

/-- The parts of messages which are written by other crates (assumed to depend on nothing else).
Those inserted in the messages at /repo/src/error.rs:14-148 and in those of /repo/src/interfaces/ffi/. -/
structure Texts where
  /-- `Display` of an error of another crate: behind a constructor without payload, or not converted to `FormatErr` (`none`) -/
  other : Option FormatErr → String
  /-- `{:?}` of an `abe_policy::Attribute` with this axis and name -/
  attributeText : String → String → String
  /-- `{:?}` of a `Vec<String>` -/
  list : List String → String

/-- `Display` of `ParsingError`, /repo/src/error.rs:130-148. -/
def ParsingError.text (x : Texts) : ParsingError → String
  | .unexpectedCharacter m => m
  | .unexpectedEnd m => m
  | .parseIntError => x.other (some (.parsingError .parseIntError))
  | .unsupportedOperator op => "unsupported operator " ++ op.toString

/-- `Display` of `FormatErr`, /repo/src/error.rs:14-83. -/
def FormatErr.text (x : Texts) : FormatErr → String
  | .cryptoError => x.other (some .cryptoError)
  | .policyError => x.other (some .policyError)
  | .tryFromIntError => x.other (some .tryFromIntError)
  | .parsingError e => e.text x
  | .attributeNotFound axis name => "attribute not found: " ++ x.attributeText axis name
  | .missingAttribute item axis => item.getD "attribute" ++ " is missing" ++ (match axis with
    | some axis => " in axis " ++ axis
    | none => "")
  | .missingAxis axis => axis ++ " is missing"
  | .expectedAttribute name list => "attribute " ++ name ++ " expected in " ++ x.list list
  | .invalidSize m => "invalid size: " ++ m
  | .deserialization m => m
  | .internalOperation m => m
  | .invalidFormula m => "invalid formula: " ++ m
  | .invalidEncryptedData => "invalid encrypted data"
  | .conversionFailed => "conversion failed"
  | .emptyPrivateKey => "Empty private key"
  | .emptyCiphertext => "Empty ciphertext"
  | .emptyPlaintext => "Empty plaintext"
  | .invalidHeaderSize n => "Header length must be at least 4 bytes. Found " ++ toString n

end Abe
