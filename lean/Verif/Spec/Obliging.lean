import Verif.Spec.Config
import Verif.Model.Host
/-! Hosts that do what they are asked for, and names that the actions of a set leave alone. -/
namespace Verif.Spec
open Verif

/-- The host accepts replies, gives the headers of the response, which may be none yet, takes headers and
properties. -/
structure Obliging {W : Type} (abi : Abi W) : Prop where
  reply : ∀ x status hs body, (abi.reply x status hs body).1 = .ok ()
  read : ∀ x, ∃ hs, abi.getMap x .response = .ok hs
  write : ∀ x t hs, (abi.setMap x t hs).1 = .ok ()
  property : ∀ x p v, (abi.setProperty x p v).1 = .ok ()

/-- Some store action of the set keeps its value under this name. -/
def KeepsAt (services : Text → Option SvcInst) (s : ActionSet) (path : Text) : Prop :=
  ∃ id head source exported, At services s id (.store head path source exported)

/-- No store action keeps a value under the name or below it. -/
def Spared (services : Text → Option SvcInst) (s : ActionSet) (name : Text) : Prop :=
  ∀ path, KeepsAt services s path → path ≠ name ∧ ¬name ++ ['.'] <+: path

end Verif.Spec
