import Verif.Model.Text
/-!
Model of the attribute paths of `crates/kuadrant-filter/src/data/attribute.rs`.
-/
namespace Verif

/-- `attribute.rs` L170-173 `Path`: its tokens. -/
abbrev Path := List Text

/-- `str::replace('.', "\\.")` (`attribute.rs` L182). -/
def escapeDots (t : Text) : Text := t.flatMap fun ch => if ch = '.' then ['\\', '.'] else [ch]

/-- `[String]::join`. -/
def joinWith (sep : Text) : List Text → Text
  | [] => []
  | [t] => t
  | t :: ts => t ++ sep ++ joinWith sep ts

/-- `attribute.rs` L175-187 `Display`. -/
def Path.print (p : Path) : Text := joinWith ['.'] (p.map escapeDots)

/-- The loop of `attribute.rs` L195-218, with the token read so far. -/
def parsePathLoop (token : Text) : Text → List Text
  | [] => [token]
  | ch :: rest =>
    if ch = '.' then token :: parsePathLoop [] rest
    else if ch = '\\' then match rest with
      | [] => [token]
      | next :: rest => parsePathLoop (token ++ [next]) rest
    else parsePathLoop (token ++ [ch]) rest

/-- `attribute.rs` L195-218 `From<&str>`. -/
def Path.parse (t : Text) : Path := parsePathLoop [] t

/-- `attribute.rs` L231-235 `wasm_prop`. -/
def wasmProp (tokens : List Text) : Path :=
  Path.parse ("filter_state.wasm\\.kuadrant\\.".toList ++ joinWith "\\.".toList tokens)

end Verif
