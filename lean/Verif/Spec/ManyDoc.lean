import Verif.Model.ManyDoc
import Verif.Spec.Many
import Verif.Spec.Whole
/-!
# Specification: several threads log to what a document configured
-/
namespace Soralog
namespace Many
open Spec

/-- a log call: the thread, the name of the logger, level and text -/
structure LogCall where
  thread : Tid
  logger : Text
  record : System.Conc.Rec
deriving DecidableEq

/-- What a thread that only logs does in the logging system: it gets the logger `n` of the group `G n`, drops a logger, logs, flushes a
logger, or goes on with such a call.  The list contains the log call that starts. -/
inductive Uses (G : Text → Text) (t : Tid) : System.Conc.St → List LogCall → System.Conc.St → Prop
  | getLogger (s : System.Conc.St) (n : Text) (fuel : Nat) (v : System.Val) (sys' : System.Sys) (hi : s.pc t = .idle)
      (hc : System.step fuel s.sys (.getLogger n (G n) none none) = .ret v sys') :
      Uses G t s [] (s.finish t sys' (.getLogger n (G n) none none) (.ret v))
  | drop (s : System.Conc.St) (i : Nat) (fuel : Nat) (v : System.Val) (sys' : System.Sys) (hi : s.pc t = .idle)
      (hc : System.step fuel s.sys (.drop i) = .ret v sys') : Uses G t s [] (s.finish t sys' (.drop i) (.ret v))
  | log (s : System.Conc.St) (i : Nat) (r : System.Conc.Rec) (hi : s.pc t = .idle) (ha : s.sys.alive i = true) :
      Uses G t s [⟨t, (s.sys.lgr i).name, r⟩] (s.goto t (.log1 i r))
  | flush (s : System.Conc.St) (i : Nat) (hi : s.pc t = .idle) (ha : s.sys.alive i = true) : Uses G t s [] (s.goto t (.log4 i))
  | step (s : System.Conc.St) (hi : s.pc t ≠ .idle) : Uses G t s [] (System.Conc.step s t)

/-- Any execution that starts in `s0` in which the threads only log: the log calls so far, in the order they started, and the state now.
`other`: what leaves the logging system as it is -- steps inside a sink, of a client, of its worker, of a destructor, and calls of a sink by the
user that push nothing. -/
inductive Logging (S : Setup) (G : Text → Text) (s0 : St) : List LogCall → St → Prop
  | start : Logging S G s0 [] s0
  | system {calls new : List LogCall} {s : St} {t : Tid} {sys' : System.Conc.St} (h : Logging S G s0 calls s) (ht : t ≠ SinkConc.workerTid)
      (hf : Free s t) (hu : Uses G t s.sys new sys') : Logging S G s0 (calls ++ new) (s.after S t sys')
  | other {calls : List LogCall} {s s' : St} (h : Logging S G s0 calls s) (he : Exec S s s') (hs : s'.sys = s.sys) (hn : s'.said = s.said) :
      Logging S G s0 calls s'

/-- What the configuration `y` says that thread `t` owes to the sink `i` after these log calls: each message whose level the group of its logger
admits, once per path from the group's sink down to `i` all of whose filters admit it. -/
def owedBy (S : Setup) (y : Yaml.St) (G : Text → Text) (t : Tid) (i : Nat) (calls : List LogCall) : List Msg :=
  (calls.filter fun c => c.thread = t).flatMap fun c =>
    match y.sys.groups.find (G c.logger) with
    | none => []
    | some g =>
      if Admits (y.sys.grp g).level c.record.level then
        match (y.sys.grp g).sink with
        | none => []
        | some k => Whole.owedThrough y.specs k ⟨c.logger, c.record.level, S.format c.record, S.fmt c.record⟩ i
      else []

end Many
end Soralog
