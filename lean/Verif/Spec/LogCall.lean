import Verif.Model.SystemConc
/-!
# Specification: one log call among calls of other threads

`During t i r s0 seen s`: thread `t` has called logger `i` with message `r` in state `s0`; since then the execution has gone on to `s` (the
call is not over before the last step); `seen` are the states of the logging system since the call began.
-/
namespace Soralog
namespace System
namespace Conc

inductive During (t : Tid) (i : Nat) (r : Rec) (s0 : St) : List Sys → St → Prop
  | start (hi : s0.pc t = .idle) (ha : s0.sys.alive i = true) : During t i r s0 [s0.sys] (s0.goto t (.log1 i r))
  | next {seen : List Sys} {s s' : St} (h : During t i r s0 seen s) (hn : s.pc t ≠ .idle) (he : Exec s s') :
      During t i r s0 (seen ++ [s'.sys]) s'

/-- who made the call of a sink -/
def SinkCall.thread : SinkCall → Tid
  | .push t _ _ | .flush t _ | .null t => t

/-- what a thread has done to sinks, in order -/
def callsOf (t : Tid) (out : List SinkCall) : List SinkCall := out.filter (fun c => c.thread = t)

/-- the levels at which a logger of level `l` passes a message on -/
def passes (l : Level) (r : Rec) : Prop := r.level ≤ l ∧ r.level ≠ .off ∧ r.level ≠ .ignore

instance (l : Level) (r : Rec) : Decidable (passes l r) := by unfold passes; infer_instance

/-- what a log call does if level and sink of the logger do not change: push, and flush if the logger's level is critical or more detailed -/
def expected (t : Tid) (level : Level) (sink : Option Nat) (r : Rec) : List SinkCall :=
  if passes level r then
    match sink with
    | none => [.null t]
    | some k => .push t k r :: if Level.critical ≤ level then [.flush t k] else []
  else []

end Conc
end System
end Soralog
