import Verif.Model.Level
/-!
# Specification: what a log record looks like, independent of how it is produced
-/
namespace Soralog
namespace Spec

/-- the decimal digits of `n`, exactly `k` of them (leading zeros) -/
def fixedDigits : Nat → Nat → List Char
  | 0, _ => []
  | k + 1, n => fixedDigits k (n / 10) ++ [Nat.digitChar (n % 10)]

/-- the second of a time in nanoseconds since the epoch -/
def second (ts : Int) : Int := ts.tdiv 1000000000

/-- the microseconds within its second -/
def micros (ts : Int) : Nat := (ts % 1000000000 / 1000).toNat

/-- `s` followed by spaces up to width `n` -/
def column (n : Nat) (s : List Char) : List Char := s ++ List.replicate (n - s.length) ' '

/-- `YY.MM.DD hh:mm:ss` -/
def dateTime (y mo d h mi s : Nat) : List Char :=
  fixedDigits 2 y ++ ['.'] ++ fixedDigits 2 mo ++ ['.'] ++ fixedDigits 2 d ++ [' '] ++
  fixedDigits 2 h ++ [':'] ++ fixedDigits 2 mi ++ [':'] ++ fixedDigits 2 s

/-- the optional thread column, with its separator -/
inductive ThreadColumn where
  | absent
  | named (name : List Char)
  | numbered (n : Nat)

def ThreadColumn.text : ThreadColumn → List Char
  | .absent => []
  | .named s => column 15 s ++ [' ', ' ']
  | .numbered n => ['T', ':'] ++ column 6 (Nat.toDigits 10 n) ++ [' ', ' ']

/-- the word that stands for a level in a record -/
def levelWord : Level → List Char
  | .off => "?Off".toList
  | .critical => "Critical".toList
  | .error => "Error".toList
  | .warn => "Warning".toList
  | .info => "Info".toList
  | .verbose => "Verbose".toList
  | .debug => "Debug".toList
  | .trace => "Trace".toList
  | .ignore => "?Ignore".toList

/-- a complete record -/
def record (dt : List Char) (usec : Nat) (th : ThreadColumn) (level name message : List Char) : List Char :=
  dt ++ ['.'] ++ fixedDigits 6 usec ++ [' ', ' '] ++ th.text ++ column 8 level ++ [' ', ' '] ++
  name ++ [' ', ' '] ++ message ++ ['\n']

/-- a record in the compact form used for syslog: nothing is padded -/
def compactRecord (dt : List Char) (usec : Nat) (th : List Char) (level name message : List Char) : List Char :=
  dt ++ ['.'] ++ fixedDigits 6 usec ++ [' ', ' '] ++ th ++ level ++ [' ', ' '] ++ name ++ [' ', ' '] ++ message

/-! ## Reading a record back -/

/-- split at the first double space -/
def splitDouble : List Char → Option (List Char × List Char)
  | ' ' :: ' ' :: rest => some ([], rest)
  | c :: rest => (splitDouble rest).map fun p => (c :: p.1, p.2)
  | [] => none

def trimRight (s : List Char) : List Char := (s.reverse.dropWhile (· = ' ')).reverse

/-- What a reader gets back: date-time text, microseconds, level name, logger name, message.  `skip` removes the
thread column. -/
structure Parsed where
  dt : List Char
  usec : Nat
  level : List Char
  name : List Char
  message : List Char
deriving DecidableEq

/-- The three thread-column modes of a reader. -/
inductive Mode where
  | absent | named | numbered

def skipThread : Mode → List Char → Option (List Char)
  | .absent, s => some s
  | .named, s => some (s.drop 17)
  | .numbered, s =>
    -- "T:", at least six characters of number and padding, two spaces
    let digits := ((s.drop 2).takeWhile Char.isDigit).length
    some (s.drop (2 + max 6 digits + 2))

def parse (mode : Mode) (s : List Char) : Option Parsed := do
  let dt := s.take 17
  let usec := Nat.ofDigitChars 10 ((s.drop 18).take 6) 0
  let s ← skipThread mode (s.drop 26)
  let level := trimRight (s.take 8)
  let (name, rest) ← splitDouble (s.drop 10)
  some { dt, usec, level, name, message := rest.dropLast }

/-! ## Colour -/

/-- remove every `ESC … m` sequence -/
def stripEscapes : List Char → List Char
  | [] => []
  | c :: cs => if c = '\x1b' then skip cs else c :: stripEscapes cs
where
  skip : List Char → List Char
    | [] => []
    | c :: cs => if c = 'm' then stripEscapes cs else skip cs

end Spec
end Soralog
