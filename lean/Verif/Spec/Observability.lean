import Verif.Model.Observability
/-! What is expected of the log. -/
namespace Verif.Spec

/-- How detailed a level of events is. -/
def detail : EventLevel → Nat
  | .error => 1
  | .warn => 2
  | .info => 3
  | .debug => 4
  | .trace => 5

/-- How detailed the events are that a filter shows. -/
def shows : Level → Nat
  | .off => 0
  | .error => 1
  | .warn => 2
  | .info => 3
  | .debug => 4
  | .trace => 5

/-- How detailed the events are that the host wants to be logged; if it does not say, warnings and errors. -/
def wanted : Option HostLevel → Nat
  | none => 2
  | some .critical => 1
  | some .error => 1
  | some .warn => 2
  | some .info => 3
  | some .debug => 4
  | some .trace => 5

/-- The level a configuration names for traces. -/
def levelNames : List (Text × Level) :=
  [("OFF".toList, .off), ("ERROR".toList, .error), ("WARN".toList, .warn), ("INFO".toList, .info),
    ("DEBUG".toList, .debug), ("TRACE".toList, .trace)]

/-- The filter of traces that a configuration asks for: none without a tracing service, and otherwise the level it
names, or warnings if it names none or another word. -/
def traceLevel (cfg : RootConfig) : Option Level :=
  cfg.tracing.map fun _ => (cfg.defaultLevel.bind fun l => levelNames.lookup l).getD .warn

/-- A configuration is read, that is, it is there and has the right form. -/
def readConfig {H : Type} : LogOp H → Option RootConfig
  | .callback (.configure cfg _ _) _ => cfg
  | _ => none

/-- The host is asked for its level: a configuration is read or a request begins. -/
def asked {H : Type} : LogOp H → Option (Option HostLevel)
  | .callback (.configure (some _) _ _) host => some host
  | .callback (.create _) host => some host
  | _ => none

/-- The last configuration that was read. -/
def lastConfig {H : Type} (ops : List (LogOp H)) : Option RootConfig := (ops.filterMap readConfig).getLast?

/-- What the host said when it was last asked. -/
def lastAsked {H : Type} (ops : List (LogOp H)) : Option (Option HostLevel) := (ops.filterMap asked).getLast?

/-- The message of an event: the value of its last field of this name, if it has one. -/
def message (e : TraceEvent) : Text :=
  (((e.fields.filter fun f => f.1 = "message".toList).getLast?).map Prod.snd).getD []

/-- The line an event leaves in the log, after `before`: none before a configuration was read, and later one with its
level and its message if it is no more detailed than the host wanted when it was last asked. -/
def lineOf {H : Type} (before : List (LogOp H)) (e : TraceEvent) : List (EventLevel × Text) :=
  match lastConfig before, lastAsked before with
  | some _, some host => if detail e.level ≤ wanted host then [(e.level, message e)] else []
  | _, _ => []

/-- All lines, in order. -/
def linesOf {H : Type} (before : List (LogOp H)) : List (LogOp H) → List (EventLevel × Text)
  | [] => []
  | .event e :: ops => lineOf before e ++ linesOf (before ++ [.event e]) ops
  | op :: ops => linesOf (before ++ [op]) ops

end Verif.Spec
