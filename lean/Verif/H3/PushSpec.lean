import Verif.H3.Push

/-! # What an application sees of pushes -/
namespace Neqo.H3
variable {H : Type}

/-- Events about what came on the push stream. -/
def PEv.isData : PEv H → Bool
  | .header .. | .readable _ => true
  | _ => false

/-- Events after which nothing is to come. -/
def PEv.isEnd : PEv H → Bool
  | .canceled _ | .reset _ => true
  | _ => false

/-- Everything the application has seen and will see if nothing more happens. -/
def Push.told (p : Push H) : List (PEv H) := p.seen ++ p.queue

/-- The events about one push. -/
def about (id : Nat) (l : List (PEv H)) : List (PEv H) := l.filter fun e => e.id = id

/-- The events about what came on one push stream. -/
def dataOf (id : Nat) (l : List (PEv H)) : List (PEv H) := l.filter fun e => e.isData ∧ e.id = id

/-- The values of the `MAX_PUSH_ID` frames. -/
def maxIds (fs : List PFrame) : List Nat :=
  fs.filterMap fun | .maxPushId id => some id | .cancelPush _ => none

/-- The largest push ID that the peer was told it may use.  Before the first
`MAX_PUSH_ID` frame there is none. -/
def allowed (fs : List PFrame) : Option Nat := (maxIds fs).getLast?

/-- A history in which no request is closed while events about its pushes are
waiting. -/
def POp.isRequestClosed : POp H → Bool
  | .requestClosed _ _ => true
  | _ => false

end Neqo.H3
