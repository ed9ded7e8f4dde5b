import Verif.Spec.Delivery
/-!
# Where a message meets a multisink without underlying sinks
-/
namespace Soralog
namespace Spec
open Sink

/-- A message of level `v` given to this sink arrives at a multisink with an empty list: there is a way down on which every
multisink, the empty one included, admits it. -/
inductive ReachesEmpty (v : Level) : Snk → Prop where
  | here (lv : Level) (h : Admits lv v) : ReachesEmpty v (.multi lv [])
  | under (lv : Level) (subs : List Snk) (h : Admits lv v) (s : Snk) (hs : s ∈ subs) (hr : ReachesEmpty v s) :
      ReachesEmpty v (.multi lv subs)

end Spec
end Soralog
