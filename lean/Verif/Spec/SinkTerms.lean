import Verif.Model.Sink
/-!
# Terms used in the statements about sinks
-/
namespace Soralog
namespace Sink

/-- the queue has a place (the configurator demands at least four events; capacity 0 see `C03_capacity_zero_refuted`), and the null sink
is only constructed with level OFF -/
def Cfg.Valid (c : Cfg) : Prop := 1 ≤ c.capacity ∧ (c.kind = .nowhere → c.level = .off)

/-- a console or file sink -/
def Stream (k : Kind) : Prop := match k with | .console _ _ => True | .file => True | _ => False

end Sink

namespace Whole
open Sink

/-- The staging buffer is large enough: for one record (console, file), for as many records as the queue has places (syslog). -/
def Roomy (c : Cfg) : Prop :=
  match c.kind with
  | .syslog => c.capacity * (95 + c.maxLen) ≤ c.maxBuffer
  | .nowhere => True
  | _ => 321 ≤ c.maxBuffer ∧ 2 * c.maxLen ≤ c.maxBuffer

/-- the clock shows a time after the epoch, thread numbers are 64-bit numbers -/
def SaneEnv (w : Sink.World) : Prop := ∀ n, 0 ≤ (w.env n).now ∧ (w.env n).threadNumber < 2 ^ 64

end Whole

end Soralog
