import Verif.Model.Sink
/-!
# Log calls with a single argument

`trace`, `debug`, … `critical` have two overloads: one takes a format and arguments, the other one value, which it logs with the format
"{}" (logger.hpp:77-184).  `log` and the macros always take a format (logger.hpp:69-72, macro.hpp:23-30).

Simplifications: of the formats of fmt only literal text, "{{", "}}" and "{}" are modelled; a replacement field with anything between its
braces counts as an error, and arguments are given by their default text.
-/
namespace Soralog
namespace Overload

/-- the type of the argument, as far as overload resolution cares: a `std::string_view`; another type of text (a string literal or other array
of characters, a pointer to characters, a `std::string`); a type that does not convert to `std::string_view`. [logger.hpp:77-88] -/
inductive Shape where
  | view | text | other
deriving DecidableEq

/-- an argument: its type, and its text (for a value that is not text: what "{}" makes of it). [logger.hpp:85-88] -/
structure Arg where
  shape : Shape
  text : Text
deriving DecidableEq

/-- a format with its arguments. [logger.hpp:44-46] -/
structure Call where
  format : Text
  args : List Text
deriving DecidableEq

/-- `logger->info(x)` and its siblings, logger.hpp:77-88.  Overload resolution: for a `std::string_view` both overloads need no conversion and
the one with the parameter of a fixed type is more specialised; for another type of text that one needs a conversion by constructor and
the template matches exactly; for other types it is not viable. -/
def one (x : Arg) : Call :=
  match x.shape with
  | .view => ⟨x.text, []⟩
  | .text | .other => ⟨"{}".toList, [x.text]⟩

/-- `logger->log(level, x)`, `SL_INFO(logger, x)`, …: the argument is the format. [logger.hpp:69-72, macro.hpp:23-30] -/
def plainLog (x : Arg) : Call := ⟨x.text, []⟩

/-- `fmt::vformat_to_n` on this fragment of its formats. [event.hpp:91-97] -/
def expand : Text → List Text → FmtResult
  | [], _ => .ok []
  | '{' :: '{' :: rest, args => andThen ['{'] (expand rest args)
  | '{' :: '}' :: rest, a :: args => andThen a (expand rest args)
  | '{' :: '}' :: _, [] => .error "argument not found".toList
  | '{' :: _, _ => .error "invalid format string".toList
  | '}' :: '}' :: rest, args => andThen ['}'] (expand rest args)
  | '}' :: _, _ => .error "unmatched '}' in format string".toList
  | c :: rest, args => andThen [c] (expand rest args)
where
  /-- text before the rest -/
  andThen (a : Text) : FmtResult → FmtResult
    | .ok b => .ok (a ++ b)
    | .error w => .error w

/-- A log call with this format and these arguments. [logger.hpp:44-55, event.hpp:90-107] -/
def say (fuel : Nat) (g : Sink.Logger) (level : Level) (c : Call) (h : Sink.Heap) : Option Sink.Heap :=
  g.log fuel level c.format (expand c.format c.args) h

end Overload
end Soralog
