import Verif.Model.Render
import Verif.Spec.Record
/-!
# Terms used in the statements about records
-/
namespace Soralog
namespace Render

/-- the broken-down time is in the ranges `localtime` guarantees -/
def Tm.Ok (t : Tm) : Prop :=
  t.year < 100 ∧ t.mon < 100 ∧ t.mday < 100 ∧ t.hour < 100 ∧ t.min < 100 ∧ t.sec < 100

/-- the text the date-time column should show for second `sec` -/
def stamp (lt : LocalTime) (sec : Int) : Text :=
  Spec.dateTime (lt sec).year (lt sec).mon (lt sec).mday (lt sec).hour (lt sec).min (lt sec).sec

/-- Facts about an event that every constructed event satisfies (see `mkEvent_wf`). -/
structure WF (maxLen : Nat) (e : Event) : Prop where
  ts : 0 ≤ e.timestamp
  msg : e.message.length ≤ maxLen
  name : e.name.length ≤ 32
  tname : e.threadName.length ≤ 15
  tnul : '\x00' ∉ e.threadName
  tnum : e.threadNumber < 2 ^ 64

/-- the thread column an event should have -/
def threadColumn (ti : ThreadInfo) (e : Event) : Spec.ThreadColumn :=
  match ti with
  | .none => .absent
  | .name => .named e.threadName
  | .id => .numbered e.threadNumber

/-- no two adjacent spaces, and no space at the end (a name may otherwise merge with the separator) -/
def Clean (s : Text) : Prop := (∀ a b, s ≠ a ++ ' ' :: ' ' :: b) ∧ s.getLast? ≠ some ' '

/-- how a reader has to treat the thread column -/
def modeOf : ThreadInfo → Spec.Mode
  | .none => .absent
  | .name => .named
  | .id => .numbered

/-- the line an event should have in a file or on a console without colour -/
def ownLine (lt : LocalTime) (ti : ThreadInfo) (e : Event) : Text :=
  Spec.record (stamp lt (Spec.second e.timestamp)) (Spec.micros e.timestamp) (threadColumn ti e) (Spec.levelWord e.level) e.name e.message

/-- the thread column of the syslog form, with its separator -/
def syslogThread (ti : ThreadInfo) (e : Event) : Text :=
  match ti with
  | .none => []
  | .name => e.threadName ++ [' ', ' ']
  | .id => ['T', ':'] ++ Nat.toDigits 10 e.threadNumber ++ [' ', ' ']

end Render

namespace Sink
open Render Spec

/-- what syslog should be told about an event -/
def ownText (lt : LocalTime) (ti : ThreadInfo) (e : Event) : Text :=
  compactRecord (stamp lt (second e.timestamp)) (micros e.timestamp) (syslogThread ti e) (levelWord e.level) e.name e.message

/-- an event as the constructor makes it (`WF`, see `mkEvent_wf`), made after the first second of the epoch, without NULs in its
name and message (a C string cannot contain them) -/
structure Sendable (maxLen : Nat) (e : Event) : Prop where
  wf : WF maxLen e
  later : second e.timestamp ≠ 0
  name : '\x00' ∉ e.name
  message : '\x00' ∉ e.message

/-- the bytes one event takes in the staging buffer, terminating NUL included -/
def bytesOf (lt : LocalTime) (ti : ThreadInfo) (e : Event) : Nat := (ownText lt ti e).length + 1

end Sink

end Soralog
