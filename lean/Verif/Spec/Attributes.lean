import Verif.Model.Cache
/-! Histories of attribute reads and writes. -/
namespace Verif.Spec

open Verif

/-- Paths whose segments contain no backslash. -/
def Clean (p : Path) : Prop := p ≠ [] ∧ ∀ t ∈ p, '\\' ∉ t

instance (p : Path) : Decidable (Clean p) := inferInstanceAs (Decidable (_ ∧ _))

/-- What may happen to attributes during a request: reads (of any type), bulk reads, writes of bytes, writes of
header maps, and any change of the host. -/
inductive AttrOp (W : Type) where
  | read (α : Type) (as : Cached → Except AttrErr α) (p : Path)
  | ensure (ps : List Path)
  | writeBytes (p : Path) (v : Bytes)
  | writeHeaders (t : Target) (hs : Headers)
  | host (f : W → W)

variable {W : Type} (b : Backend W)

/-- The effect of an operation. -/
def AttrOp.step (s : Attrs W) : AttrOp W → Attrs W
  | read _ as p => (s.read b as p).2
  | ensure ps => s.ensure b ps
  | writeBytes p v => (s.writeBytes b p v).2
  | writeHeaders t hs => (s.writeHeaders b t hs).2
  | host f => { s with world := f s.world }

/-- All paths used are clean. -/
def AttrOp.Clean : AttrOp W → Prop
  | read _ _ p => Spec.Clean p
  | ensure ps => ∀ p ∈ ps, Spec.Clean p
  | writeBytes p _ => Spec.Clean p
  | writeHeaders .. => True
  | host _ => True

/-- The operation succeeds in writing attribute `p`. -/
def AttrOp.Writes (p : Path) (s : Attrs W) : AttrOp W → Prop
  | writeBytes q v => q = p ∧ (s.writeBytes b q v).1 = .available ()
  | writeHeaders t hs => headersPath t = p ∧ (s.writeHeaders b t hs).1 = .available ()
  | _ => False

/-- The operations are performed one after the other, none writing `p`. -/
inductive Leaves (p : Path) : Attrs W → List (AttrOp W) → Attrs W → Prop
  | nil (s : Attrs W) : Leaves p s [] s
  | cons {s s' : Attrs W} {op : AttrOp W} {ops : List (AttrOp W)} (hc : op.Clean) (hw : ¬ op.Writes b p s)
      (h : Leaves p (op.step b s) ops s') : Leaves p s (op :: ops) s'

/-- What a read of a known value answers. -/
def answer {α : Type} (as : Cached → Except AttrErr α) (v : Cached) : Ans α :=
  match as v with
  | .ok a => .available a
  | .error _ => .err

end Verif.Spec
