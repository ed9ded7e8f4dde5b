import Verif.Model.Event
/-!
# Model of the rendering part of `flush()` of the console, file and syslog sinks
(src/impl/sink_to_file.cpp, src/impl/sink_to_console.cpp, src/impl/sink_to_syslog.cpp)
-/
namespace Soralog
namespace Render

/-- The staging buffer `buff_` and the write pointer `ptr`: `cap = buff_.size()`; `out` is what has been written
from `begin` up to `ptr`; `overflow` = some character was stored outside the buffer. [file:126-128, console:187-189, syslog:134-136] -/
structure W where
  cap : Nat
  out : Text
  overflow : Bool
deriving DecidableEq, Repr

/-- `*ptr++ = c`. [file:198, console:294, and the loops file:26-69] -/
def W.put (w : W) (c : Char) : W :=
  { w with out := w.out ++ [c], overflow := w.overflow || decide (w.cap ≤ w.out.length) }

/-- unchecked copy of a text: `put_string` (file:47-52, console:110-115, syslog:46-51), `memcpy` (file:159) -/
def W.puts (w : W) (s : Text) : W := s.foldl W.put w

/-- `ptr = fmt::format_to_n(ptr, end - ptr, …).out` with formatted text `s`: at most `end - ptr` characters are
written; when `ptr` is already beyond `end` the negative difference becomes a huge `size_t`. [file:162, 175-177, console:233, 250-252, syslog:170, 182-184] -/
def W.fmt (w : W) (s : Text) : W :=
  if w.out.length ≤ w.cap then w.puts (s.take (w.cap - w.out.length)) else w.puts s

/-- `separator` and `put_separator`, file:24-30, console:27, 89-93, syslog:26-32 -/
def W.sep (w : W) : W := w.puts "  ".toList

/-- pad on the right with spaces up to `n`. [`{:<6}` of file:176, console:251] -/
def padRight (n : Nat) (s : Text) : Text := s ++ List.replicate (n - s.length) ' '
/-- `{:0>n}`: pad on the left with zeros. [file:147, 162] -/
def padZero (n : Nat) (s : Text) : Text := List.replicate (n - s.length) '0' ++ s

/-- decimal text of an integer as fmt prints it. [file:162, 176] -/
def decInt (i : Int) : Text :=
  match i with
  | .ofNat n => Nat.toDigits 10 n
  | .negSucc n => '-' :: Nat.toDigits 10 (n + 1)

/-- `put_string(ptr, name, width)`, file:55-69, console:118-132: stop at NUL or at `width`, then pad. -/
def W.putWidth (w : W) (s : Text) (width : Nat) : W :=
  let cut := (s.takeWhile (· ≠ '\x00')).take width
  (w.puts cut).puts (List.replicate (width - cut.length) ' ')

/-- `put_level`, file:32-41, console:95-104.  Simplification: a level outside the table would read past it; then
nothing is written here (C59 proves it never happens). -/
def W.level (w : W) (l : Level) : W :=
  let s := ((Level.toStr? l).getD "").toList
  (w.puts s).puts (List.replicate (8 - s.length) ' ')

/-- `put_level` of the syslog sink does not pad, syslog:34-40. -/
def W.levelShort (w : W) (l : Level) : W := w.puts ((Level.toStr? l).getD "").toList

/-- Broken-down local time as used by the code: `tm_year % 100`, `tm_mon + 1`, `tm_mday`, `tm_hour`, `tm_min`,
`tm_sec`.  `fmt::localtime` is a parameter of the model: a function of the second. [file:144, 148-153] -/
structure Tm where
  year : Nat
  mon : Nat
  mday : Nat
  hour : Nat
  min : Nat
  sec : Nat
deriving DecidableEq, Repr

/-- `fmt::localtime`, file:144, console:205, syslog:152; a parameter of the model. -/
abbrev LocalTime := Int → Tm

/-- The format of file:147 etc. -/
def dateText (t : Tm) : Text :=
  let d (n : Nat) := padZero 2 (Nat.toDigits 10 n)
  d t.year ++ ['.'] ++ d t.mon ++ ['.'] ++ d t.mday ++ [' '] ++ d t.hour ++ [':'] ++ d t.min ++ [':'] ++ d t.sec

/-- `psec` and `datetime` (file:130-132): the cached conversion; `datetime` starts as 17 NULs. -/
structure Cache where
  psec : Int
  datetime : Text
deriving DecidableEq, Repr

/-- file:130-132, console:191-193, syslog:138-140. -/
def Cache.init : Cache := { psec := 0, datetime := List.replicate 17 '\x00' }

/-- `time / 1s` (truncating division of nanoseconds), file:140 -/
def secOf (ts : Int) : Int := ts.tdiv 1000000000
/-- `time % 1s / 1us`, file:141 -/
def usecOf (ts : Int) : Int := (ts.tmod 1000000000).tdiv 1000

/-- file:143-155: `format_to_n(datetime.data(), 17, …)` overwrites the first characters of the array. -/
def Cache.update (lt : LocalTime) (c : Cache) (sec : Int) : Cache :=
  if c.psec ≠ sec then
    let s := (dateText (lt sec)).take 17
    { psec := sec, datetime := s ++ c.datetime.drop s.length }
  else c

/-- thread column of console and file, file:168-183, console:243-258 -/
def W.thread (w : W) (ti : ThreadInfo) (e : Event) : W :=
  match ti with
  | .name => (w.putWidth e.threadName 15).sep
  | .id => (w.fmt ("T:".toList ++ padRight 6 (Nat.toDigits 10 e.threadNumber))).sep
  | .none => w

/-- thread column of syslog, syslog:176-191 -/
def W.threadSyslog (w : W) (ti : ThreadInfo) (e : Event) : W :=
  match ti with
  | .name => (w.puts e.threadName).sep
  | .id => (w.fmt ("T:".toList ++ Nat.toDigits 10 e.threadNumber)).sep
  | .none => w

/-- One record of the file sink, file:137-198. -/
def fileRecord (lt : LocalTime) (ti : ThreadInfo) (c : Cache) (w : W) (e : Event) : W × Cache :=
  let c := c.update lt (secOf e.timestamp)
  let w := w.puts c.datetime
  let w := w.fmt (['.'] ++ padZero 6 (decInt (usecOf e.timestamp)))
  let w := w.sep
  let w := w.thread ti e
  let w := (w.level e.level).sep
  let w := (w.puts e.name).sep
  let w := (w.puts e.message).put '\n'
  (w, c)

/-- ESC. [console:30] -/
def esc : Char := '\x1b'

/-- `reset_color`, console:30 -/
def resetColor : Text := esc :: "[0m".toList
/-- `make_emphasis(bold)`, fmt. [console:73, 77, 83] -/
def bold : Text := esc :: "[1m".toList
/-- `make_emphasis(italic)`, fmt. [console:85] -/
def italic : Text := esc :: "[3m".toList
/-- `make_foreground_color(color)`, fmt: `ESC[38;2;RRR;GGG;BBBm`, three digits each. [console:72, 225] -/
def foreground (rgb : Nat × Nat × Nat) : Text :=
  let d (n : Nat) := padZero 3 (Nat.toDigits 10 n)
  esc :: "[38;2;".toList ++ d rgb.1 ++ [';'] ++ d rgb.2.1 ++ [';'] ++ d rgb.2.2 ++ ['m']

/-- `level_to_color_map`, console:32-42 (values of `fmt::color`): brown, red, orange_red, orange, forest_green,
dark_green, medium_blue, gray -/
def colorTable : List (Nat × Nat × Nat) :=
  [(165, 42, 42), (255, 0, 0), (255, 69, 0), (255, 165, 0), (34, 139, 34), (0, 100, 0), (0, 0, 205),
   (128, 128, 128)]

/-- `fmt::color::gray`, console:225. -/
def gray : Nat × Nat × Nat := (128, 128, 128)

/-- `level_to_color_map[level]`; `none` = outside the table (the `assert` of console:69) -/
def levelColor? (l : Level) : Option (Nat × Nat × Nat) := colorTable[l.toNat]?

/-- `put_level_style`, console:68-74.  The two styles are written while evaluating the arguments of `pass`
(56-59), so their order is unspecified in C++: `boldFirst` chooses it. -/
def levelStyle (boldFirst : Bool) (l : Level) : Text :=
  match levelColor? l with
  | none => []
  | some c => if boldFirst then bold ++ foreground c else foreground c ++ bold

/-- `put_text_style`, console:80-87 -/
def textStyle (l : Level) : Text :=
  if l ≤ Level.error then bold else if Level.debug ≤ l then italic else []

/-- One record of the console sink, console:198-294. -/
def consoleRecord (lt : LocalTime) (ti : ThreadInfo) (color boldFirst : Bool) (c : Cache) (w : W) (e : Event) :
    W × Cache :=
  let style (w : W) (s : Text) : W := if color then w.puts s else w
  let c := c.update lt (secOf e.timestamp)
  let w := w.puts c.datetime
  let w := style w (foreground gray)
  let w := w.fmt (['.'] ++ padZero 6 (decInt (usecOf e.timestamp)))
  let w := style w resetColor
  let w := w.sep
  let w := w.thread ti e
  let w := style w (levelStyle boldFirst e.level)
  let w := w.level e.level
  let w := style w resetColor
  let w := w.sep
  let w := style w bold
  let w := w.puts e.name
  let w := style w resetColor
  let w := w.sep
  let w := style w (textStyle e.level)
  let w := w.puts e.message
  let w := style w resetColor
  let w := w.put '\n'
  (w, c)

/-- One record of the syslog sink, syslog:145-206. -/
def syslogRecord (lt : LocalTime) (ti : ThreadInfo) (c : Cache) (w : W) (e : Event) : W × Cache :=
  let c := c.update lt (secOf e.timestamp)
  let w := w.puts c.datetime
  let w := w.fmt (['.'] ++ padZero 6 (decInt (usecOf e.timestamp)))
  let w := w.sep
  let w := w.threadSyslog ti e
  let w := (w.levelShort e.level).sep
  let w := (w.puts e.name).sep
  let w := (w.puts e.message).put '\x00'
  (w, c)

/-- `max_buffer_size_` after the auto-fix of the `Sink` constructor, sink.hpp:76-80; `buff_` has that size
(file:89, console:154, syslog:91). -/
def bufferSize (requested maxMessageLength : Nat) : Nat :=
  if requested < maxMessageLength * 2 then maxMessageLength * 2 else requested

end Render
end Soralog
