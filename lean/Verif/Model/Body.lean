import Verif.Model.Sse
import Verif.Model.Val
/-!
Model of the body parsers used by the store action and by the token-usage task.

Models `crates/kuadrant-filter/src/kuadrant/pipeline/tasks/store/{body_parser,json_body_parser,sse_body_parser}.rs`
and the extraction strategies of `.../tasks/token_usage.rs`.
The JSON libraries (`acutejson`, `serde_json`) and the float parser are parameters (`JsonLib`).
-/
namespace Verif

/-- Insert into a map with unique keys (`HashMap::insert`, `BTreeMap::insert`). The order of the list
carries no meaning. -/
def mapInsert {α β : Type} [DecidableEq α] (m : List (α × β)) (k : α) (v : β) : List (α × β) :=
  (k, v) :: m.filter (fun e => e.1 ≠ k)

/-- Map lookup (`HashMap::get`). -/
def mapGet {α β : Type} [DecidableEq α] (m : List (α × β)) (k : α) : Option β :=
  (m.find? (fun e => e.1 = k)).map Prod.snd

/-- `serde_json::Value`. Numbers are kept as `serde_json` keeps them: unsigned, negative or float. -/
inductive Json where
  | null
  | bool (b : Bool)
  | pos (n : Nat)
  | neg (i : Int)
  | float (bits : UInt64)
  | str (t : Text)
  | arr (l : List Json)
  | obj (m : List (Text × Json))

/-- External JSON functions. -/
structure JsonLib where
  /-- `serde_json::from_str` -/
  parse : Text → Option Json
  /-- `serde_json::Value::pointer` -/
  pointer : Json → Text → Option Json
  /-- `serde_json::Value::to_string` -/
  render : Json → Text
  /-- `str::parse::<f64>` -/
  parseF64 : Text → Option UInt64
  /-- whether registering the pointers with `acutejson::Builder` succeeds -/
  acuteRegister : List Text → Bool
  /-- `acutejson::Parser::feed` after the given chunks: `none` on error, `some true` when done. -/
  acuteFeed : List Text → List Bytes → Bytes → Option Bool
  /-- `acutejson::Parser::finish` after the given chunks: whether it succeeds. -/
  acuteFinish : List Text → List Bytes → Bool
  /-- The raw bytes delivered to the registered callbacks, for each matched pointer, after the given
  chunks (and after `finish` if the flag is set). -/
  acuteMatched : List Text → List Bytes → Bool → List (Text × Bytes)

/-- Rust `str::parse::<i64>`: an optional sign, at least one decimal digit, no overflow. -/
def parseI64 (s : Text) : Option Int :=
  match s with
  | '-' :: ds =>
    match ds with
    | [] => none
    | _ => match Sse.digitsVal 0 ds with
      | some n => if n ≤ 2 ^ 63 then some (-(n : Int)) else none
      | none => none
  | _ =>
    let ds := match s with
      | '+' :: r => r
      | _ => s
    match ds with
    | [] => none
    | _ => match Sse.digitsVal 0 ds with
      | some n => if n < 2 ^ 63 then some (n : Int) else none
      | none => none

/-- `store/body_parser.rs` L14-34 `parse_json_scalar`. -/
def parseJsonScalar (parseF64 : Text → Option UInt64) (raw : Text) : Val :=
  if raw = "null".toList then .null
  else if raw = "true".toList then .bool true
  else if raw = "false".toList then .bool false
  else match parseI64 raw with
    | some i => .int i
    | none => match Sse.parseU64 raw with
      | some n => .uint n
      | none => match parseF64 raw with
        | some f => .float f
        | none => .str raw

/-- `store/json_body_parser.rs` L12-20 `JsonBodyParser`. The state of the external parser is the list
of the chunks it was fed. The field `parser` is always `Some` after `new`. -/
structure JsonBody where
  fields : List Text
  fed : List Bytes := []
  extracted : List (Text × Val) := []
  consumed : Nat := 0
  complete : Bool := false

/-- `json_body_parser.rs` L23-69 `JsonBodyParser::new`. -/
def JsonBody.new (lib : JsonLib) (fields : List Text) : Option JsonBody :=
  if lib.acuteRegister fields then some { fields } else none

/-- `json_body_parser.rs` L71-85 `finalize_extracted`. The Rust loop runs in hash-map order; on an
error the values inserted before it stay, but every caller then drops the parser. -/
def JsonBody.finalizeExtracted (lib : JsonLib) (b : JsonBody) (finished : Bool) : Option JsonBody :=
  (lib.acuteMatched b.fields b.fed finished).foldl (init := some b) fun r (field, raw) =>
    match r with
    | none => none
    | some b => match fromUtf8 raw with
      | none => none
      | some t => some { b with extracted := mapInsert b.extracted field (parseJsonScalar lib.parseF64 t) }

/-- `json_body_parser.rs` L109-134 `feed`; `none` is the error result. -/
def JsonBody.feed (lib : JsonLib) (b : JsonBody) (chunk : Bytes) : Option JsonBody :=
  let b := { b with consumed := b.consumed + chunk.length }
  if b.complete then some b
  else match lib.acuteFeed b.fields b.fed chunk with
    | none => none
    | some done =>
      let b := { b with fed := b.fed ++ [chunk] }
      if done then JsonBody.finalizeExtracted lib { b with complete := true } false else some b

/-- `json_body_parser.rs` L92-100 `finalize`. -/
def JsonBody.finalize (lib : JsonLib) (b : JsonBody) : Option JsonBody :=
  if lib.acuteFinish b.fields b.fed then b.finalizeExtracted lib true else none

/-- `store/sse_body_parser.rs` L128-134 `SseBodyParser`. -/
structure SseBody where
  fields : List Text
  parser : Sse.Parser := {}
  last : Option Sse.Event := none
  beforeLast : Option Sse.Event := none
  extracted : List (Text × Val) := []
  complete : Bool := false

/-- `sse_body_parser.rs` L147-150 `push_event`. -/
def SseBody.push (b : SseBody) (e : Sse.Event) : SseBody :=
  { b with beforeLast := b.last, last := some e }

/-- `sse_body_parser.rs` L195-210 `feed`. -/
def SseBody.feed (b : SseBody) (chunk : Bytes) : Option SseBody :=
  if b.complete then some b
  else match Sse.parseBytes b.parser chunk with
    | (_, none) => none
    | (p, some events) => some (events.foldl SseBody.push { b with parser := p })

/-- `sse_body_parser.rs` L163-186 `finalize`. -/
def SseBody.finalize (lib : JsonLib) (b : SseBody) : Option SseBody :=
  let b := { b with complete := true }
  match b.beforeLast with
  | none => some b
  | some e => match lib.parse e.data with
    | none => none
    | some json => some (b.fields.foldl (init := b) fun b field =>
        match lib.pointer json field with
        | none => b
        | some (.str s) => { b with extracted := mapInsert b.extracted field (.str s) }
        | some other => { b with
            extracted := mapInsert b.extracted field (parseJsonScalar lib.parseF64 (lib.render other)) })

/-- `Box<dyn BodyParser>`. -/
inductive BodyParser where
  | json (b : JsonBody)
  | sse (b : SseBody)

namespace BodyParser

/-- `bytes_consumed` (`json_body_parser.rs` L88-90, `sse_body_parser.rs` L159-161). -/
def consumed : BodyParser → Nat
  | json b => b.consumed
  | sse _ => 0

/-- `BodyParser::feed`. -/
def feed (lib : JsonLib) : BodyParser → Bytes → Option BodyParser
  | json b, c => (b.feed lib c).map json
  | sse b, c => (b.feed c).map sse

/-- `BodyParser::finalize`. -/
def finalize (lib : JsonLib) : BodyParser → Option BodyParser
  | json b => (b.finalize lib).map json
  | sse b => (b.finalize lib).map sse

/-- The values extracted so far (`populate`). -/
def extracted : BodyParser → List (Text × Val)
  | json b => b.extracted
  | sse b => b.extracted

/-- The requested fields. -/
def fields : BodyParser → List Text
  | json b => b.fields
  | sse b => b.fields

/-- `remaining_fields` (`json_body_parser.rs` L102-107, `sse_body_parser.rs` L188-193). -/
def remaining (b : BodyParser) : List Text :=
  b.fields.filter (fun f => (mapGet b.extracted f).isNone)

end BodyParser

/-- The extraction strategies of `token_usage.rs` L130-207. -/
inductive Strategy where
  | sse (parser : Sse.Parser) (last beforeLast : Option Sse.Event)
  | json (buffer : Bytes)

/-- `feed_buffer` (`token_usage.rs` L158-164 and L193-195). A parse error of the event stream is
ignored; the parser then keeps its state. -/
def Strategy.feed : Strategy → Bytes → Strategy
  | .sse p l b, bytes => match Sse.parseBytes p bytes with
    | (p', none) => .sse p' l b
    | (p', some events) =>
      let r := events.foldl (fun (x : Option Sse.Event × Option Sse.Event) e => (some e, x.1)) (l, b)
      .sse p' r.1 r.2
  | .json buf, bytes => .json (buf ++ bytes)

/-- The document `extract_property` reads from (`token_usage.rs` L166-173 and L197-204). -/
def Strategy.doc (lib : JsonLib) : Strategy → Option Json
  | .sse _ _ b => b.bind fun e => lib.parse e.data
  | .json buf => (fromUtf8 buf).bind lib.parse

/-- `extract_property` (`token_usage.rs` L166-175 and L197-206). -/
def Strategy.extract (lib : JsonLib) (s : Strategy) (prop : Text) : Option Json :=
  (s.doc lib).bind fun j => lib.pointer j prop

/-- The value the token-usage task stores for an extracted JSON value (`token_usage.rs` L89-104).
`Number::as_u64` is tried first, then `as_i64`, then `as_f64`. -/
def jsonToStored : Json → Option Val
  | .bool b => some (.bool b)
  | .pos n => some (.uint n)
  | .neg i => some (.int i)
  | .float f => some (.float f)
  | .str s => some (.str s)
  | .null => none
  | .arr _ => none
  | .obj _ => none

end Verif
