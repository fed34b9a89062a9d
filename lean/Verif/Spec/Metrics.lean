import Verif.Model.Metrics
/-! What is expected of the counters. -/
namespace Verif.Spec

/-- The counters of the filter, in the order in which they are made known to the host. -/
def counterList : List (Counter × String) :=
  [(.configs, "kuadrant.configs"), (.hits, "kuadrant.hits"), (.misses, "kuadrant.misses"),
    (.allowed, "kuadrant.allowed"), (.denied, "kuadrant.denied"), (.errors, "kuadrant.errors")]

/-- The calls that make all counters known. -/
def definitions : List MetricCall := counterList.map fun c => .define c.2.toList

/-- The identifier the host gave to a counter, if it gave one. -/
def given (define : Metrics.Host) (c : Counter) : Option Nat :=
  match c with
  | .configs => define [] "kuadrant.configs".toList
  | .hits => define (definitions.take 1) "kuadrant.hits".toList
  | .misses => define (definitions.take 2) "kuadrant.misses".toList
  | .allowed => define (definitions.take 3) "kuadrant.allowed".toList
  | .denied => define (definitions.take 4) "kuadrant.denied".toList
  | .errors => define (definitions.take 5) "kuadrant.errors".toList

/-- The calls for a sequence of things to count: the counters are made known once, and then each thing increases its
counter by one, if the host knows it. -/
def counterCalls (define : Metrics.Host) : List Counter → List MetricCall
  | [] => []
  | c :: cs => definitions ++ (c :: cs).filterMap fun c => (given define c).map (.increment · 1)

section
variable {H : Type}

/-- The context that begins. -/
def created : VmOp H → Option Nat
  | .create id => some id
  | _ => none

/-- The context whose request headers arrive. -/
def begun : VmOp H → Option Nat
  | .headers id _ => some id
  | _ => none

/-- Contexts have different identifiers, and the headers of a request arrive once. -/
structure Distinct (ops : List (VmOp H)) : Prop where
  created : (ops.filterMap created).Nodup
  begun : (ops.filterMap begun).Nodup

/-- The effects of a request so far. -/
def effectsOf (c : HttpCtx H) : List Effect := (c.filter.map Filter.log).getD []

/-- A configuration is received. -/
def configures : VmOp H → Bool
  | .configure .. => true
  | _ => false

/-- What a counter counts in a request: that actions were found for it, that none were, that its response began, that
the filter tried to answer it, and errors. -/
def Counts : Counter → Effect → Bool
  | .hits, .hits => true
  | .misses, .misses => true
  | .allowed, .allowed => true
  | .denied, .denied => true
  | .errors, .errors => true
  | _, _ => false

/-- What a counter should show: the configurations that were received, or how often the effect occurred in the
requests. -/
def total {P : Type} (vm : Vm P H) (ops : List (VmOp H)) (c : Counter) : Nat :=
  (if c = .configs then ops.countP configures else 0) +
    (vm.contexts.map fun e => (effectsOf e.2).countP fun x => Counts c x).sum

end

end Verif.Spec
