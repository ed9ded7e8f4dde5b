import Verif.Model.Level
/-!
# Specification: a terminal, as far as colours and emphasis go

A terminal that understands the control sequence "select graphic rendition" (`ESC [ … m`, ECMA-48) and shows every other character in the
style that is in force.  Other control sequences change nothing here.
-/
namespace Soralog
namespace Spec

/-- how characters are shown; no foreground colour: the one of the terminal -/
structure Style where
  foreground : Option (Nat × Nat × Nat)
  bold : Bool
  italic : Bool
deriving DecidableEq

/-- the style a terminal starts with -/
def Style.normal : Style := ⟨none, false, false⟩

/-- the effect of the parameters of one sequence -/
def Style.select : List Nat → Style → Style
  | [], s => s
  | 0 :: ps, _ => select ps .normal
  | 1 :: ps, s => select ps { s with bold := true }
  | 3 :: ps, s => select ps { s with italic := true }
  | 38 :: 2 :: r :: g :: b :: ps, s => select ps { s with foreground := some (r, g, b) }
  | _ :: ps, s => select ps s

/-- where in a sequence the terminal is: outside, after ESC, after `ESC [` with the parameters read so far and the digits of the current one -/
inductive Scan where
  | text
  | escape
  | control (done : List Nat) (current : Nat)
deriving DecidableEq

/-- the terminal: what it has shown so far, each character with its style -/
structure Term where
  scan : Scan
  style : Style
  shown : List (Char × Style)
deriving DecidableEq

/-- one character arrives; ESC always begins a new sequence -/
def Term.put (t : Term) (c : Char) : Term :=
  if c = '\x1b' then { t with scan := .escape }
  else match t.scan with
    | .text => { t with shown := t.shown ++ [(c, t.style)] }
    | .escape => if c = '[' then { t with scan := .control [] 0 } else { t with scan := .text }
    | .control done n =>
      if c.isDigit then { t with scan := .control done (10 * n + (c.toNat - '0'.toNat)) }
      else if c = ';' then { t with scan := .control (done ++ [n]) 0 }
      else if c = 'm' then { t with scan := .text, style := Style.select (done ++ [n]) t.style }
      else { t with scan := .text }

/-- a text arrives -/
def Term.feed (t : Term) (s : List Char) : Term := s.foldl Term.put t

/-- the terminal is outside any sequence and in its normal style -/
def Neutral (t : Term) : Prop := t.scan = .text ∧ t.style = .normal

/-- the style of the word for a level: bold, in the colour of the level -/
def levelLook : Level → Style
  | .critical => ⟨some (255, 0, 0), true, false⟩
  | .error => ⟨some (255, 69, 0), true, false⟩
  | .warn => ⟨some (255, 165, 0), true, false⟩
  | .info => ⟨some (34, 139, 34), true, false⟩
  | .verbose => ⟨some (0, 100, 0), true, false⟩
  | .debug => ⟨some (0, 0, 205), true, false⟩
  | .trace => ⟨some (128, 128, 128), true, false⟩
  | .off | .ignore => .normal

/-- the style of the message: errors and worse in bold, debug and trace messages in italics -/
def messageLook : Level → Style
  | .critical | .error => ⟨none, true, false⟩
  | .debug | .trace => ⟨none, false, true⟩
  | _ => .normal

/-- a text shown in one style -/
def inStyle (st : Style) (s : List Char) : List (Char × Style) := s.map fun c => (c, st)

end Spec
end Soralog
