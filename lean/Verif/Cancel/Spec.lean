import Verif.Cancel.Model
/-! What is said about histories: definitions over the sequence of events only. -/
namespace Verif.Cancel

def Event.isStart (f : Nat) : Event → Bool
  | .started f' _ => f' == f
  | _ => false

def Event.isCancelCall : Event → Bool
  | .cancelCalled _ => true
  | _ => false

def Event.isDeregCall : Event → Bool
  | .deregCalled _ _ => true
  | _ => false

def Event.isThrow : Event → Bool
  | .threw _ _ _ => true
  | _ => false

/-- How often the callback registered by call `f` starts. -/
def starts (f : Nat) (tr : List Event) : Nat := tr.countP (Event.isStart f)

/-- Nothing is in progress: no call can go on. -/
def Quiet (s : State) : Prop := ∀ k es sh th', ¬ Local k s.shared (s.threads k) es sh th'

end Verif.Cancel
