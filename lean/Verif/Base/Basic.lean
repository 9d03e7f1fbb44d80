/-!
# Shared basic types
-/

namespace Verif

/-- Payloads: `bytes::Bytes` / `Vec<u8>`. -/
abbrev Bytes := List UInt8

/-- A Rust `String`/`&str` is a valid UTF-8 byte string; equality, hashing and splitting at ASCII
characters are operations on the bytes, so the model uses the bytes. -/
abbrev Str := List UInt8

end Verif
