import Verif.Model.Ring
/-!
# The queue when the construction of an element throws

`Event::Event` catches what is derived from `std::exception` (event.hpp:90-107, C08).  Anything else a user's formatter throws leaves
`Node::init` (circular_buffer.hpp:33-35), `put` (167) and `Sink::push` (sink.hpp:127).  In builds with `NDEBUG` these are `noexcept` and the
process ends (`std::terminate`); in other builds (`IF_RELEASE` false, circular_buffer.hpp:16-20, sink.hpp:19-23) the exception goes on to
the caller: no `NodeRef` has been made yet, so nobody clears `Node::busy`, and the slot stays counted in `size_`.
-/
namespace Soralog
namespace Ring

/-- What can happen next, in a build without `NDEBUG`: as `Act`, or the construction under way in thread `t` throws.
[circular_buffer.hpp:60-64, 107-206] -/
inductive ActT (T : Type) where
  | act (a : Act T)
  | throw (t : Tid)

/-- The exception leaves `put` at line 167: nothing is undone. [circular_buffer.hpp:166-169] -/
def throwOut {T : Type} (s : St T) (t : Tid) : St T :=
  match s.pc t with
  | .putBuild _ _ => { s with pc := upd s.pc t .idle }
  | _ => s

/-- One action. [circular_buffer.hpp:60-206] -/
def actT {T : Type} (s : St T) : ActT T → St T
  | .act a => act s a
  | .throw t => throwOut s t

/-- A whole schedule. [circular_buffer.hpp:60-206] -/
def execT {T : Type} (s : St T) (as : List (ActT T)) : St T := as.foldl actT s

end Ring
end Soralog
