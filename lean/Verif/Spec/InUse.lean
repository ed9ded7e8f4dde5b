import Verif.Model.InUse
import Verif.Spec.Lifetime
/-!
# Terms used in the statements about sinks in use
-/
namespace Soralog
namespace InUse
open System (Op)
open System.Conc (Done)

/-- The calls completed so far; the constructor of the logging system has registered the sink to nowhere, number 0, under the name `*`. -/
def history (s : St) : List Done := .call (.makeSink System.star) (.ret (.sink 0)) :: s.sys.done

/-- Sink `k` has been registered under the name `n`, and no sink has been registered under this name since. -/
def StillRegistered (s : St) (n : Text) (k : Nat) : Prop :=
  ∃ pre post, history s = pre ++ .call (.makeSink n) (.ret (.sink k)) :: post ∧ ∀ o, .call (.makeSink n) o ∉ post

/-- Somebody has a pointer to sink `k`: the logging system, the program (`handles`), or an object that is owned itself.  (If nobody has,
`shared_ptr` has run the destructor of the sink.)  The sinks below multisinks are given by `specs`. -/
def Kept (s : St) (specs : Nat → Yaml.Spec) (handles : List Lifetime.Obj) (k : Nat) : Prop :=
  let st : Yaml.St := ⟨s.sys.sys, specs, false, [], false, false⟩
  Lifetime.Owned (Lifetime.members st) (Lifetime.systemOwns st ++ handles) (.sink k)

/-- `t` is inside `push` or `flush` of sink `k`, called by a log call through logger `i`. -/
def Uses (s : St) (t : Tid) (i k : Nat) : Prop := s.inside t = some (i, k)

end InUse
end Soralog
