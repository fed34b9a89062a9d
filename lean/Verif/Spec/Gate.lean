import Verif.Spec.Pipeline
/-! What it means that a request goes on, for C68. -/
namespace Verif.Spec

/-- The filter lets the stream go on: it resumes it, or it answers a callback with Continue. (What is answered at the
end of the response body is property C15.) -/
def GoesOn (e : Effect) : Prop :=
  isResume e = true ∨ ∃ cb, cb ≠ .responseBody true ∧ e = .returned cb false

end Verif.Spec
