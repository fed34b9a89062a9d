/-!
Text and UTF-8. A Rust `String` is modelled by its characters; bytes are `List UInt8`.
-/
namespace Verif

/-- Text, i.e. the characters of a Rust `String`. -/
abbrev Text := List Char

/-- Byte strings, Rust `Vec<u8>`. -/
abbrev Bytes := List UInt8

/-- The bytes of a Rust `String` (`str::as_bytes`). -/
def utf8 (t : Text) : Bytes := t.flatMap String.utf8EncodeChar

/-- `String::from_utf8` on a list of bytes. -/
def fromUtf8 (bytes : Bytes) : Option Text :=
  ((ByteArray.mk bytes.toArray).utf8Decode?).map Array.toList

end Verif
