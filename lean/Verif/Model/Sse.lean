import Verif.Model.Text
/-!
Model of the server-sent-event parser.

Models `crates/kuadrant-filter/src/kuadrant/pipeline/tasks/store/sse_body_parser/sse_line_parser.rs`
and the event part of `.../store/sse_body_parser.rs`.
Text is `List Char`; Rust's byte offsets into `&str` are not visible in this code because it only
splits at positions found by the parser.
-/
namespace Verif.Sse

/-- `sse_line_parser.rs` L35-40 `RawEventLine`. -/
inductive RawLine where
  | comment (s : Text)
  | field (name : Text) (val : Option Text)
  | empty
deriving DecidableEq, Repr

/-- Result of a `nom` streaming parser: `Err(Incomplete)`, `Err(Error)` or `Ok((rem, value))`.
`Err(Failure)` is never produced by the combinators used. -/
inductive Res (α : Type) where
  | incomplete
  | error
  | ok (rem : Text) (a : α)
deriving DecidableEq, Repr

/-- `nom::bytes::streaming::tag`: `Incomplete` if the input is a proper prefix of the tag. -/
def tag : Text → Text → Res Unit
  | [], s => .ok s ()
  | _ :: _, [] => .incomplete
  | t :: ts, c :: cs => if t = c then tag ts cs else .error

/-- `nom::bytes::streaming::take_while`: `Incomplete` if no stopping character is present. -/
def takeWhile (p : Char → Bool) : Text → Res Text
  | [] => .incomplete
  | c :: cs =>
    if p c then
      match takeWhile p cs with
      | .ok rem a => .ok rem (c :: a)
      | .error => .error
      | .incomplete => .incomplete
    else .ok (c :: cs) []

/-- `nom::bytes::streaming::take_while1`: like `take_while` but an error if nothing matches. -/
def takeWhile1 (p : Char → Bool) : Text → Res Text
  | [] => .incomplete
  | c :: cs => if p c then takeWhile p (c :: cs) else .error

/-- `nom::bytes::streaming::take_while_m_n(1, 1, p)`. On a one-character input some versions of nom
answer `Incomplete`; every use here is followed by a parser that is incomplete on empty input, so
the difference cannot be observed. -/
def takeOne (p : Char → Bool) : Text → Res Unit
  | [] => .incomplete
  | c :: cs => if p c then .ok cs () else .error

/-- `nom::branch::alt`: the next alternative is tried only after `Error`. -/
def alt {α : Type} (a b : Text → Res α) (s : Text) : Res α :=
  match a s with
  | .error => b s
  | r => r

/-- Sequencing (`preceded`, `terminated` and tuples of `nom`). -/
def bind {α β : Type} (a : Res α) (f : Text → α → Res β) : Res β :=
  match a with
  | .ok rem x => f rem x
  | .error => .error
  | .incomplete => .incomplete

/-- `nom::combinator::opt`: `Error` becomes `None` without consuming; `Incomplete` is passed on. -/
def opt {α : Type} (a : Text → Res α) (s : Text) : Res (Option α) :=
  match a s with
  | .ok rem x => .ok rem (some x)
  | .error => .ok s none
  | .incomplete => .incomplete

def lf : Char := '\n'
def cr : Char := '\r'

/-- `sse_line_parser.rs` L58-63 `is_name_char`: every scalar value but LF, CR and colon. -/
def isNameChar (c : Char) : Bool := c != lf && c != cr && c != ':'

/-- `sse_line_parser.rs` L66-70 `is_any_char`: every scalar value but LF and CR. -/
def isAnyChar (c : Char) : Bool := c != lf && c != cr

/-- `sse_line_parser.rs` L78-80 `end_of_line` (with `crlf` L73-75). -/
def endOfLine (s : Text) : Res Unit :=
  alt (tag [cr, lf]) (alt (tag [cr]) (tag [lf])) s

/-- `sse_line_parser.rs` L83-90 `comment`. -/
def comment (s : Text) : Res RawLine :=
  bind (takeOne (· == ':') s) fun s _ =>
  bind (takeWhile isAnyChar s) fun s c =>
  bind (endOfLine s) fun s _ => .ok s (.comment c)

/-- The optional value of a field, `sse_line_parser.rs` L97-100. -/
def fieldValue (s : Text) : Res Text :=
  bind (takeOne (· == ':') s) fun s _ =>
  bind (opt (takeOne (· == ' ')) s) fun s _ =>
  takeWhile isAnyChar s

/-- `sse_line_parser.rs` L93-106 `field`. -/
def field (s : Text) : Res RawLine :=
  bind (takeWhile1 isNameChar s) fun s name =>
  bind (opt fieldValue s) fun s val =>
  bind (endOfLine s) fun s _ => .ok s (.field name val)

/-- `sse_line_parser.rs` L109-111 `empty`. -/
def empty (s : Text) : Res RawLine :=
  bind (endOfLine s) fun s _ => .ok s .empty

/-- `sse_line_parser.rs` L113-115 `line`. -/
def line (s : Text) : Res RawLine := alt comment (alt field empty) s

/-- `sse_body_parser.rs` L12-22 `Event`; `retry` in milliseconds. -/
structure Event where
  event : Text := []
  data : Text := []
  id : Text := []
  retry : Option Nat := none
deriving DecidableEq, Repr

/-- `sse_body_parser.rs` L73-77 `EventBuilder`. -/
structure Builder where
  event : Event := {}
  isComplete : Bool := false
deriving DecidableEq, Repr

/-- Value of a decimal digit. -/
def digit? (c : Char) : Option Nat :=
  if '0' ≤ c ∧ c ≤ '9' then some (c.toNat - '0'.toNat) else none

/-- Decimal digits to a number, most significant digit first. -/
def digitsVal : Nat → Text → Option Nat
  | acc, [] => some acc
  | acc, c :: cs => match digit? c with
    | some d => digitsVal (acc * 10 + d) cs
    | none => none

/-- Rust `str::parse::<u64>`: an optional `+`, at least one decimal digit, no overflow. -/
def parseU64 (s : Text) : Option Nat :=
  let ds := match s with
    | '+' :: r => r
    | _ => s
  match ds with
  | [] => none
  | _ => match digitsVal 0 ds with
    | some n => if n < 2 ^ 64 then some n else none
    | none => none

/-- `sse_body_parser.rs` L80-106 `EventBuilder::add`. -/
def Builder.add (b : Builder) : RawLine → Builder
  | .field name val =>
    let val := val.getD []
    if name = "event".toList then
      { b with event := { b.event with event := val } }
    else if name = "data".toList then
      { b with event := { b.event with
          data := (if b.event.data = [] then [] else b.event.data ++ [lf]) ++ val } }
    else if name = "id".toList then
      if val.contains '\x00' then b else { b with event := { b.event with id := val } }
    else if name = "retry".toList then
      match parseU64 val with
      | some n => { b with event := { b.event with retry := some n } }
      | none => b
    else b
  | .comment _ => b
  | .empty => { b with isComplete := true }

/-- The event a completed builder yields, `sse_body_parser.rs` L108-125 `EventBuilder::dispatch`
(the builder itself is reset by `mem::take`). -/
def Builder.dispatch (b : Builder) : Option Event :=
  let e := b.event
  if e.data = [] then none
  else
    let data := if e.data.getLast? = some lf then e.data.dropLast else e.data
    let name := if e.event = [] then "message".toList else e.event
    some { e with data := data, event := name }

/-- `sse_body_parser.rs` L24-28 `EventParser`. -/
structure Parser where
  buffer : Text := []
  builder : Builder := {}
deriving DecidableEq, Repr

/-- The loop of `sse_body_parser.rs` L51-69. `none` is the error result of the Rust function.
The loop is bounded by `fuel`; `parseOne` starts it with more fuel than there are characters,
and each round consumes at least one, so the bound is never reached (`parseOneLoop_eq`). -/
def parseOneLoop : Nat → Parser → Option (Option Event × Parser)
  | 0, p => some (none, p)
  | fuel + 1, p =>
    match line p.buffer with
    | .ok rem l =>
      let b := p.builder.add l
      if b.isComplete then
        match b.dispatch with
        | some e => some (some e, ⟨rem, {}⟩)
        | none => parseOneLoop fuel ⟨rem, {}⟩
      else parseOneLoop fuel ⟨rem, b⟩
    | .incomplete => some (none, p)
    | .error => none

/-- `sse_body_parser.rs` L47-70 `parse_one_event`. -/
def parseOne (p : Parser) : Option (Option Event × Parser) :=
  if p.buffer = [] then some (none, p)
  else parseOneLoop (p.buffer.length + 1) p

/-- The `while let` loop of `sse_body_parser.rs` L38-44, bounded like `parseOneLoop`. -/
def parseLoop : Nat → Parser → Option (List Event × Parser)
  | 0, p => some ([], p)
  | fuel + 1, p =>
    match parseOne p with
    | some (some e, p') =>
      match parseLoop fuel p' with
      | some (es, p'') => some (e :: es, p'')
      | none => none
    | some (none, p') => some ([], p')
    | none => none

/-- `sse_body_parser.rs` L31-45 `EventParser::parse` on text. -/
def parseText (p : Parser) (chunk : Text) : Option (List Event × Parser) :=
  let p' : Parser := { p with buffer := p.buffer ++ chunk }
  parseLoop (p'.buffer.length + 1) p'

/-- `sse_body_parser.rs` L31-45 `EventParser::parse` on bytes. On invalid UTF-8 the parser is left
unchanged and an error is returned (second component `none`). -/
def parseBytes (p : Parser) (chunk : Bytes) : Parser × Option (List Event) :=
  match fromUtf8 chunk with
  | none => (p, none)
  | some t => match parseText p t with
    | some (es, p') => (p', some es)
    | none => (p, none)

/-- Feeding a list of text chunks one after the other. -/
def feedAll (p : Parser) : List Text → Option (List Event × Parser)
  | [] => some ([], p)
  | c :: cs =>
    match parseText p c with
    | none => none
    | some (es, p') =>
      match feedAll p' cs with
      | none => none
      | some (es', p'') => some (es ++ es', p'')

end Verif.Sse
