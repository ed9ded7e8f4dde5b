/-!
# Model of include/soralog/level.hpp
-/
namespace Soralog

/-- One `Char` is one byte of text (`char`). [`std::string_view` of event.hpp:46, 131-154] -/
abbrev Text := List Char

/-- level.hpp:19-29 -/
inductive Level where
  | off | critical | error | warn | info | verbose | debug | trace | ignore
deriving DecidableEq, Repr, Inhabited

namespace Level

/-- The underlying `uint8_t`, level.hpp:19-29; `<` and `<=` on `Level` compare these. -/
def toNat : Level → Nat
  | .off => 0 | .critical => 1 | .error => 2 | .warn => 3 | .info => 4
  | .verbose => 5 | .debug => 6 | .trace => 7 | .ignore => 8

instance : LE Level := ⟨fun a b => a.toNat ≤ b.toNat⟩
instance : LT Level := ⟨fun a b => a.toNat < b.toNat⟩
instance (a b : Level) : Decidable (a ≤ b) := inferInstanceAs (Decidable (a.toNat ≤ b.toNat))
instance (a b : Level) : Decidable (a < b) := inferInstanceAs (Decidable (a.toNat < b.toNat))

/-- `detail::level_to_str_map`, level.hpp:32-45, as the array it is: index = numeric level. -/
def strTable : List String :=
  ["?Off", "Critical", "Error", "Warning", "Info", "Verbose", "Debug", "Trace", "?Ignore"]

/-- `levelToStr`, level.hpp:59-62.  `none` would be an index outside the table. -/
def toStr? (l : Level) : Option String := strTable[l.toNat]?

/-- `levelToChar`, level.hpp:51-54. -/
def toChar? (l : Level) : Option Char := (toStr? l).bind (·.toList.head?)

end Level
end Soralog
