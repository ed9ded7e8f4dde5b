import Verif.Spec.RecordTerms
import Verif.Model.Whole
import Verif.Spec.Delivery
import Verif.Spec.Record
/-!
# What a program owes to its sinks
-/
namespace Soralog
namespace Whole

open Spec

/-- the level a sink with a queue was configured with (the sink to nowhere admits nothing) -/
def ownLevel (spec : Yaml.Spec) : Level :=
  match spec.cfg with
  | some c => c.level
  | none => .off

/-- A message of the level of `m` that is passed to the sink `j` must reach the sink `k` once per path all of whose filters admit it. -/
def owedThrough (specs : Nat → Yaml.Spec) (j : Nat) (m : Msg) (k : Nat) : List Msg :=
  List.replicate (deliveries (tree specs j) (fun i => ownLevel (specs i)) m.level k) m

/-- The warning of `getLogger` as a message, and the sink of the fallback group it goes to: it comes from a logger "Soralog". -/
def warningOf : System.Warning → Nat × Msg
  | .deprecated k => (k, ⟨"Soralog".toList, .warn, "{}".toList, .ok
      "Default group (calling with name '*') is deprecated and should not used anymore; Define existing group explicitly".toList⟩)
  | .unknownGroup k group logger fallback => (k, ⟨"Soralog".toList, .warn,
      "Group '{}' for logger '{}' is not found. Fallback group will be used (it is group '{}' right now).".toList,
      .ok ("Group '".toList ++ group ++ "' for logger '".toList ++ logger ++
        "' is not found. Fallback group will be used (it is group '".toList ++ fallback ++ "' right now).".toList)⟩)

/-- What the call `c`, which took the program from `s` to `s'`, owes to the sink `k`: a log call on a live logger owes its message if the
logger's level at that moment admits it, through the sink the logger holds at that moment; `getLogger` owes the warnings it gave. -/
def owes (s : State) (c : Call) (s' : State) (k : Nat) : List Msg :=
  match c with
  | .log i v format fmt =>
    let l := s.st.sys.lgr i
    if i < s.st.sys.nloggers ∧ s.st.sys.alive i ∧ Admits l.level v then
      match l.sink with
      | some j => owedThrough s.st.specs j ⟨l.name, v, format, fmt⟩ k
      | none => []
    else []
  | .system _ => (s'.st.sys.warned.drop s.st.sys.warned.length).flatMap fun w =>
      owedThrough s.st.specs (warningOf w).1 (warningOf w).2 k
  | _ => []

/-- a sink is made by the user from sinks that exist, with a queue that has a slot -/
def Proper (s : State) : Call → Prop
  | .makeSink _ spec => (∀ c, spec.cfg = some c → 1 ≤ c.capacity ∧ c.kind ≠ .nowhere) ∧
      ∀ lv subs, spec = .multi lv subs → ∀ j ∈ subs, j < s.st.sys.nsinks
  | _ => True

/-- The states a program can reach by proper calls that satisfy `ok`, from a new system, together with all that is owed to the sinks. -/
inductive History (E : Env) (ok : State → Call → Prop) : State → (Nat → List Msg) → Prop
  | new (debug : Bool) (ord : List Nat → List Nat) (ho : ∀ l, (ord l).Perm l) (syslogOpen : Bool) :
      History E ok (new E debug ord syslogOpen) fun _ => []
  | call {s s' : State} {owed : Nat → List Msg} {c : Call} {F : Nat} (h : History E ok s owed) (hc : Proper s c) (hok : ok s c)
      (hF : 2 ≤ F) (hs : step E F s c = .ok s' ∨ step E F s c = .throw s') : History E ok s' fun k => owed k ++ owes s c s' k

/-- no multisink without underlying sinks has been created -/
def NoEmpty (s : State) : Prop := ∀ k lv, s.st.specs k ≠ .multi lv []

/-- the record of an event, see C10 -/
def lineOf (lt : Render.LocalTime) (ti : ThreadInfo) (e : Event) : Text := Render.ownLine lt ti e

end Whole
end Soralog
