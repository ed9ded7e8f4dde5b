import Verif.Model.Level
/-!
# Model of include/soralog/event.hpp
-/
namespace Soralog

/-- `Sink::ThreadInfoType`, sink.hpp:49-53 -/
inductive ThreadInfo where
  | none | name | id
deriving DecidableEq, Repr

/-- What `fmt::vformat_to_n` does with the user's format and arguments (event.hpp:91-98): it either produces a
text, or throws a `std::exception` with this `what()`.  fmt itself is not modelled. -/
inductive FmtResult where
  | ok (text : Text)
  | error (what : Text)
deriving DecidableEq, Repr

/-- A call `push(name, level, format, args...)`, with the result of formatting. [sink.hpp:117-120, logger.hpp:44-46] -/
structure Msg where
  name : Text
  level : Level
  /-- the format string itself -/
  format : Text
  fmt : FmtResult
deriving DecidableEq, Repr

/-- What the environment supplies when an event is constructed: the clock (nanoseconds since the epoch), the
number of the calling thread (`util::getThreadNumber`) and its 16-byte cached name (`util::getThreadName`). [event.hpp:52-63] -/
structure Env where
  now : Int
  threadNumber : Nat
  threadName : Text
deriving DecidableEq, Repr

/-- Data members of an `Event`, event.hpp:157-166.  `threadName`, `name`, `message` are the ranges the
accessors `thread_name()`, `name()`, `message()` (131-154) return. -/
structure Event where
  timestamp : Int
  threadNumber : Nat
  threadName : Text
  name : Text
  level : Level
  message : Text
deriving DecidableEq, Repr

/-- `strnlen(s, n)` applied to a char array, event.hpp:56 -/
def strnlen (s : Text) (n : Nat) : Nat := ((s.take n).takeWhile (· ≠ '\x00')).length

/-- The text of event.hpp:101: `"Format error: {}; Format: {}"` with `what` and the format. -/
def formatErrorText (what format : Text) : Text :=
  "Format error: ".toList ++ what ++ "; Format: ".toList ++ format

/-- Constructor of `Event`, event.hpp:46-112.  `format_to_n(it, n, …)` writes the first `n` characters and
returns the full size in `.size`; `message_size_` is then cut to `n` (109).  `name_` is a 32-byte array (161). -/
def mkEvent (env : Env) (ti : ThreadInfo) (maxLen : Nat) (m : Msg) : Event :=
  -- 53-63
  let threadName := match ti with
    | .name => env.threadName.take (strnlen env.threadName 15)
    | _ => []
  let threadNumber := match ti with
    | .name | .id => env.threadNumber
    | .none => 0
  -- 90-107: written text, returned size, name, level
  let (written, size, name, level) := match m.fmt with
    | .ok text => (text.take maxLen, text.length, m.name, m.level)
    | .error what =>
      let text := formatErrorText what m.format
      (text.take maxLen, text.length, "Soralog".toList, Level.error)
  -- 109-111
  let messageSize := min maxLen size
  let nameSize := min name.length 32
  { timestamp := env.now, threadNumber, threadName,
    name := name.take nameSize, level, message := written.take messageSize }

end Soralog
