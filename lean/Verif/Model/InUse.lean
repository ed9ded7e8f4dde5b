import Verif.Model.Many
import Verif.Model.Lifetime
/-!
# Model of the time a log call spends inside a sink

`System.Conc` makes `sink_->push(…)` and `sink_->flush()` of a log call one step each.  Here a thread stays inside the sink it has called for
as long as it likes, while the other threads go on.  `Logger::push` calls through its member `sink_` (logger.hpp:49, 51): the thread has no
`shared_ptr` of its own.

Simplifications: those of `System.Conc`; what the thread does inside the sink is the subject of `SinkFull` and `Many`.
-/
namespace Soralog
namespace InUse
open System.Conc (SinkCall)

/-- The logging system with its threads, and for each thread the logger and the sink in whose `push` or `flush` it is. [logger.hpp:44-56] -/
structure St where
  sys : System.Conc.St
  inside : Tid → Option (Nat × Nat)

/-- nothing called yet. [logging_system.cpp:22-25] -/
def init (debug : Bool) (ord : List Nat → List Nat) : St := ⟨System.Conc.init debug ord, fun _ => none⟩

/-- the logger a thread is logging through. [logger.hpp:44-56] -/
def loggerOf : System.Conc.PC → Option Nat
  | .log1 i _ | .log2 i _ | .log3 i | .log4 i => some i
  | _ => none

/-- the sink of a call, logger.hpp:49, 51 -/
def sinkOf : SinkCall → Option Nat
  | .push _ k _ | .flush _ k => some k
  | .null _ => none

/-- the sink a step has called. [logger.hpp:49-51] -/
def called (before after : System.Conc.St) : Option Nat := (after.out.drop before.out.length).head?.bind sinkOf

/-- after a step of thread `t`: where it is now. [logger.hpp:49-51] -/
def entered (t : Tid) (before after : System.Conc.St) : Option (Nat × Nat) :=
  (loggerOf (before.pc t)).bind fun i => (called before after).map fun k => (i, k)

/-- What may happen next: a thread that is in no sink goes on in the logging system, or a thread returns from the sink it is in.
[logging_system.cpp:27-557, logger.hpp:44-56] -/
inductive Exec : St → St → Prop
  | system (s : St) (t : Tid) (sys' : System.Conc.St) (hf : s.inside t = none) (hm : Many.Moves t s.sys sys') :
      Exec s ⟨sys', upd s.inside t (entered t s.sys sys')⟩
  | leave (s : St) (t : Tid) : Exec s { s with inside := upd s.inside t none }

/-- all executions. [logging_system.cpp, logger.hpp] -/
inductive Reach : St → Prop
  | init (debug : Bool) (ord : List Nat → List Nat) (ho : ∀ l, (ord l).Perm l) : Reach (init debug ord)
  | next {s s' : St} : Reach s → Exec s s' → Reach s'

end InUse
end Soralog
