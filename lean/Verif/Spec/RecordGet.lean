import Verif.Model.RecordGet
/-! Specification for C77 -/
namespace Pvxs.Spec.RecGet
open Pvxs.RecGet

/-- what a client knows after one more update: fields which are not sent keep their value -/
def learn (old new : Node) : Node where
  value := new.value.or old.value
  status := new.status.or old.status
  severity := new.severity.or old.severity
  message := new.message.or old.message
  seconds := new.seconds.or old.seconds
  nanoseconds := new.nanoseconds.or old.nanoseconds
  userTag := new.userTag.or old.userTag
  props := new.props.or old.props

/-- what a client knows after these updates -/
def knows (l : List Node) : Node := l.foldl learn {}

/-- the record, and which of its aspects an event is about -/
def recordOf : Event → Rec
  | .value _ r => r
  | .property r => r

/-- the events the database raises: is this one about the value, the alarm, the properties? -/
def aboutValue : Event → Bool
  | .value (some m) _ => m.testBit 0
  | .value none _ => true
  | .property _ => false
def aboutAlarm : Event → Bool
  | .value (some m) _ => m.testBit 2
  | .value none _ => true
  | .property _ => false
def aboutProps : Event → Bool
  | .value (some m) _ => m.testBit 3
  | .value none _ => false
  | .property _ => true

/-- the record at the last event about something -/
def lastOf (about : Event → Bool) (es : List Event) : Option Rec := ((es.filter about).getLast?).map recordOf

/-- the class of an alarm in pvAccess: none, device, driver, record, database or undefined -/
def classes : List (List Nat × Nat) := [([0], 0), ([1, 2, 3, 4, 5, 6, 7, 8, 11], 1), ([9, 10, 17], 2), ([12, 13, 14, 15, 16], 3), ([18, 19, 20, 21], 4)]

def isValueEvent : Event → Bool
  | .value _ _ => true
  | .property _ => false

end Pvxs.Spec.RecGet
