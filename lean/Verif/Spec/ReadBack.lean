import Verif.Spec.RecordTerms
/-!
# Specification: reading a log file back
-/
namespace Soralog
namespace Spec

/-- the lines of a text, each with its line end, and what follows the last line end; the first argument is the beginning of the current line -/
def linesFrom : List Char → List Char → List (List Char) × List Char
  | cur, [] => ([], cur)
  | cur, c :: cs => if c = '\n' then ((cur ++ ['\n']) :: (linesFrom [] cs).1, (linesFrom [] cs).2) else linesFrom (cur ++ [c]) cs

/-- the lines of a file and the unfinished rest -/
def fileLines (s : List Char) : List (List Char) × List Char := linesFrom [] s

/-- read a log file: one record per line, nothing after the last one -/
def readFile (mode : Mode) (s : List Char) : Option (List Parsed) :=
  if (fileLines s).2 = [] then (fileLines s).1.mapM (parse mode) else none

end Spec

namespace Render

/-- what a reader should get back of an event -/
def readingOf (lt : LocalTime) (e : Event) : Spec.Parsed :=
  ⟨stamp lt (Spec.second e.timestamp), Spec.micros e.timestamp, Spec.levelWord e.level, e.name, e.message⟩

/-- no text of the event contains a line end -/
def OneLine (e : Event) : Prop := '\n' ∉ e.threadName ∧ '\n' ∉ e.name ∧ '\n' ∉ e.message

/-- how many line ends the texts of an event contain; the thread name counts only where it is shown -/
def lineEnds (ti : ThreadInfo) (e : Event) : Nat :=
  (if ti = .name then e.threadName.count '\n' else 0) + e.name.count '\n' + e.message.count '\n'

/-- an event as log calls make them, with a name that does not run into the separator -/
structure Legible (maxLen : Nat) (e : Event) : Prop where
  wf : WF maxLen e
  later : Spec.second e.timestamp ≠ 0
  oneLine : OneLine e
  clean : Clean e.name

end Render
end Soralog
