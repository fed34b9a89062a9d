import Verif.Model.Filter
import Verif.Spec.SseStream
/-!
# How bodies reach the parsers

A host either accumulates a body while the filter waits, or hands over each chunk on its own. The JSON parser is
external; what it was fed is the list of chunks, in order.
-/
namespace Verif.Spec

variable {H : Type}

/-- Successive evaluations of an action, each in a context of its own and each but the last asking for another one. -/
inductive Evaluations (o : Oracle H) : Core → List (Ctx H) → Core → Prop
  | none (k : Core) : Evaluations o k [] k
  | again {k k' k'' : Core} {c c' : Ctx H} {cs : List (Ctx H)}
      (h : k.apply o c = (.requeued [.core k'], c')) (hs : Evaluations o k' cs k'') : Evaluations o k (c :: cs) k''

/-- The states in which the host is asked for the body: as found, or after it was asked for the response headers. -/
def Soon (o : Oracle H) (c : Ctx H) (h : H) : Prop := h = c.host ∨ h = (o.getHeaders c .response).2

/-- During the evaluation in `c` the host has accumulated as much of the body as it announced, all of it at the end
of the stream. -/
structure Accumulated (o : Oracle H) (source : Source) (body : Bytes) (c : Ctx H) : Prop where
  size : (c.body source).size ≤ body.length
  whole : (c.body source).eos = true → (c.body source).size = body.length
  reads : ∀ h off len bytes h', Soon o c h → off + len ≤ (c.body source).size →
    o.readBody (c.withHost h) source off len = (.available (some bytes), h') → bytes = (body.drop off).take len

/-- During the evaluation in `c` the host answers: some of the body or its end is there, reading it succeeds and so does asking
for the headers of the response. -/
structure Answers (o : Oracle H) (source : Source) (c : Ctx H) : Prop where
  size : 0 < (c.body source).size ∨ (c.body source).eos = true
  reads : ∀ h off len, Soon o c h → off + len ≤ (c.body source).size →
    ∃ bytes h', o.readBody (c.withHost h) source off len = (.available (some bytes), h')
  headers : source = .response → (o.getHeaders c .response).1 ≠ .pending

/-- The content type says that the body is an event stream. Of several content types the first counts. -/
def EventsIn (hs : Headers) : Prop :=
  ∃ contentType, hs.lookup "content-type".toList = some contentType ∧ "text/event-stream".toList <:+: contentType

/-- The content type of the response is not that of an event stream. -/
def PlainBody (o : Oracle H) (source : Source) (c : Ctx H) : Prop :=
  source = .response → ∀ hs h, o.getHeaders c .response = (.available hs, h) → ¬ EventsIn hs

/-- During the evaluation in `c` the host hands over `chunk` only. -/
structure HandedOver (o : Oracle H) (source : Source) (chunk : Bytes) (c : Ctx H) : Prop where
  size : (c.body source).size = chunk.length
  reads : ∀ h off len, Soon o c h → ∃ h',
    o.readBody (c.withHost h) source off len = (.available (some ((chunk.drop off).take len)), h')

/-- The JSON parser has read what it needs of the body: all of it, and it was told so, or a part of it from the
beginning after which it said that it has found every field. -/
inductive ReadAll (lib : JsonLib) (fields : List Text) (body : Bytes) : List Bytes → Bool → Prop
  | whole {chunks} (h : chunks.flatten = body) (hf : lib.acuteFinish fields chunks = true) :
      ReadAll lib fields body chunks true
  | found {first last told} (h : (first ++ [last]).flatten <+: body)
      (hd : lib.acuteFeed fields first last = some true) : ReadAll lib fields body (first ++ [last]) told

/-- The value of a field of the body: the JSON parser read the body, in chunks of any sizes, and delivered the text of
this value for the field. -/
def FieldOf (lib : JsonLib) (body : Bytes) (field : Text) (v : Val) : Prop :=
  ∃ fields chunks told raw text, ReadAll lib fields body chunks told ∧
    (field, raw) ∈ lib.acuteMatched fields chunks told ∧ fromUtf8 raw = some text ∧
    v = parseJsonScalar lib.parseF64 text

/-- The fields known in the context are fields of the body. -/
def KnowsBody (lib : JsonLib) (source : Source) (body : Bytes) (c : Ctx H) : Prop :=
  ∀ field v, mapGet (c.body source).values field = some v → FieldOf lib body field v

/-- The value of a field found in the data of an event. -/
def eventValue (lib : JsonLib) : Json → Val
  | .str s => .str s
  | j => parseJsonScalar lib.parseF64 (lib.render j)

/-- The value of a field that token counting found: numbers without a sign are unsigned. Null, arrays and objects are
no values. -/
def countedValue : Json → Option Val
  | .bool b => some (.bool b)
  | .pos n => some (.uint n)
  | .neg i => some (.int i)
  | .float f => some (.float f)
  | .str s => some (.str s)
  | .null | .arr _ | .obj _ => none

/-- The response headers are there and tell whether the body is an event stream. -/
def ContentIs (o : Oracle H) (events : Bool) (c : Ctx H) : Prop :=
  ∃ hs h, o.getHeaders c .response = (.available hs, h) ∧ (events = true ↔ EventsIn hs)

/-- The document that token counting reads from, for a whole body. -/
def countedDoc (lib : JsonLib) (events : Bool) (body : Bytes) : Option Json :=
  (fromUtf8 body).bind fun text =>
    if events then (Sse.secondToLast (Spec.Sse.events text)).bind fun e => lib.parse e.data else lib.parse text

/-- The callbacks announce as much of the request body as the host has accumulated, all of it at the end of the
stream, and reading gives the accumulated part. -/
structure AccumulatesRequest (o : Oracle H) (body : Bytes) (events : List (Event H)) : Prop where
  sizes : ∀ h size eos, Event.requestBody h size eos ∈ events →
    size ≤ body.length ∧ (eos = true → size = body.length)
  reads : ∀ c off len bytes h, off + len ≤ (c : Ctx H).req.size →
    o.readBody c .request off len = (.available (some bytes), h) → bytes = (body.drop off).take len

end Verif.Spec
