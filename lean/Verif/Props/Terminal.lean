import Verif.Spec.Terminal
import Verif.Props.Render
import Verif.Props.Sink
import Verif.Props.Many
/-!
# C100: colour does not leak, and shows what it should
-/
namespace Soralog
namespace Render
open Spec

theorem puts_out (w : W) (s : Text) : (w.puts s).out = w.out ++ s := by
  unfold W.puts
  induction s generalizing w with
  | nil => simp
  | cons c s ih => rw [List.foldl_cons, ih]; simp [W.put]

theorem feed_append (t : Term) (a b : List Char) : t.feed (a ++ b) = (t.feed a).feed b := List.foldl_append ..

/-- the sequence that resets the style does so whatever the terminal is in the middle of -/
theorem feed_reset (t : Term) : t.feed resetColor = { t with scan := .text, style := .normal } := by
  cases t; rfl

theorem feed_newline (t : Term) (h : t.scan = .text) : t.feed ['\n'] = { t with shown := t.shown ++ [('\n', t.style)] } := by
  cases t; cases h; rfl

theorem feed_plain (t : Term) (h : t.scan = .text) (s : Text) (hs : esc ∉ s) :
    t.feed s = { t with shown := t.shown ++ inStyle t.style s } := by
  induction s generalizing t with
  | nil => cases t; simp [Term.feed, inStyle]
  | cons c s ih =>
    have hc : c ≠ '\x1b' := fun x => hs (by rw [x]; exact List.mem_cons_self)
    have hp : t.put c = { t with shown := t.shown ++ [(c, t.style)] } := by
      unfold Term.put; rw [if_neg hc, h]
    have h2 := ih { t with shown := t.shown ++ [(c, t.style)] } h (fun x => hs (List.mem_cons_of_mem _ x))
    show Term.feed (t.put c) s = _
    rw [hp, h2]
    simp [inStyle]

theorem feed_bold (t : Term) (h : t.scan = .text) : t.feed bold = { t with style := { t.style with bold := true } } := by
  cases t; cases h; rfl

theorem feed_italic (t : Term) (h : t.scan = .text) : t.feed italic = { t with style := { t.style with italic := true } } := by
  cases t; cases h; rfl

theorem feed_gray (t : Term) (h : t.scan = .text) :
    t.feed (foreground gray) = { t with style := { t.style with foreground := some (128, 128, 128) } } := by
  cases t; cases h; rfl

theorem feed_levelStyle (bf : Bool) (l : Level) (hl : RealLevel l) (sh : List (Char × Style)) :
    Term.feed ⟨.text, .normal, sh⟩ (levelStyle bf l) = ⟨.text, levelLook l, sh⟩ := by
  cases bf <;> cases l <;> first | rfl | exact absurd hl (by unfold RealLevel; decide)

theorem feed_textStyle (l : Level) (hl : RealLevel l) (sh : List (Char × Style)) :
    Term.feed ⟨.text, .normal, sh⟩ (textStyle l) = ⟨.text, messageLook l, sh⟩ := by
  cases l <;> first | rfl | exact absurd hl (by unfold RealLevel; decide)

theorem console_ends (lt : LocalTime) (ti : ThreadInfo) (bf : Bool) (c : Cache) (w : W) (e : Event) :
    ∃ pre : Text, (consoleRecord lt ti true bf c w e).1.out = pre ++ resetColor ++ ['\n'] := by
  have key : ∀ w0 : W, ((w0.puts resetColor).put '\n').out = w0.out ++ resetColor ++ ['\n'] := by
    intro w0
    show (w0.puts resetColor).out ++ ['\n'] = _
    rw [puts_out]
  exact ⟨_, key _⟩

theorem feed_coloured (lt : LocalTime) (ti : ThreadInfo) (bf : Bool) (c : Cache) (w : W) (e : Event) (t : Term) :
    (t.feed (consoleRecord lt ti true bf c w e).1.out).scan = .text ∧
    (t.feed (consoleRecord lt ti true bf c w e).1.out).style = .normal := by
  obtain ⟨pre, hp⟩ := console_ends lt ti bf c w e
  rw [hp, feed_append, feed_append, feed_reset, feed_newline _ rfl]
  exact ⟨rfl, rfl⟩

theorem feed_all (lt : LocalTime) (ti : ThreadInfo) (bf : Bool) (w : W) (es : List Event) (t : Term) (ht : Neutral t) :
    Neutral (t.feed (es.flatMap fun e => (consoleRecord lt ti true bf Cache.init w e).1.out)) := by
  induction es generalizing t with
  | nil => exact ht
  | cons e es ih =>
    rw [List.flatMap_cons, feed_append]
    exact ih _ (feed_coloured lt ti bf Cache.init w e t)

/-- **C100**, one record.  Whatever the terminal was doing before, and whatever escape sequences, complete or cut off, the name, the thread name and the message of
the event contain: after the coloured record the terminal is outside any sequence and in its normal style. -/
theorem C100_record_restores (lt : LocalTime) (ti : ThreadInfo) (bf : Bool) (cap : Nat) (e : Event) (t : Term) :
    Neutral (t.feed (consoleRecord lt ti true bf Cache.init (fresh cap) e).1.out) :=
  feed_coloured lt ti bf Cache.init (fresh cap) e t

/-- an event whose message switches to italics and ends in the middle of a sequence: without the record's end the terminal would stay so -/
def leaky : Event := ⟨1700000000000000000, 1, [], "net".toList, .info, "a\x1b[3mb\x1b[38;2".toList⟩

example : ¬ Neutral (Term.feed ⟨.text, .normal, []⟩ leaky.message) ∧
    Neutral (Term.feed ⟨.text, .normal, []⟩ (consoleRecord (fun _ => ⟨24, 1, 2, 3, 4, 5⟩) .id true true Cache.init (fresh 1000) leaky).1.out) :=
  ⟨fun h => absurd h.1 (by decide), C100_record_restores _ _ _ _ _ _⟩

/-- **C100**, what is shown.  On a terminal in its normal state the coloured record of a log call shows exactly the characters of the plain record: the
microseconds in gray, the word of the level in bold and in the colour of the level, the name in bold, the message in the style of its
level, everything else in the normal style, which is also the style at the end. -/
theorem C100_shown (lt : LocalTime) (hlt : ∀ s, (lt s).Ok) (requested maxLen : Nat)
    (hreq : 321 ≤ requested ∨ 161 ≤ maxLen) (ti : ThreadInfo) (bf : Bool) (env : Env) (m : Msg) (henv : 0 ≤ env.now)
    (hnum : env.threadNumber < 2 ^ 64) (hsec : Spec.second env.now ≠ 0) (hl : Level.critical ≤ m.level ∧ m.level ≤ Level.trace)
    (sh : List (Char × Style)) :
    let e := mkEvent env ti maxLen m
    let cap := bufferSize requested maxLen
    esc ∉ e.threadName → esc ∉ e.name → esc ∉ e.message →
    Term.feed ⟨.text, .normal, sh⟩ (consoleRecord lt ti true bf Cache.init (fresh cap) e).1.out =
      ⟨.text, .normal, sh ++
        (inStyle .normal (stamp lt (Spec.second env.now)) ++
         inStyle ⟨some (128, 128, 128), false, false⟩ (['.'] ++ fixedDigits 6 (micros env.now)) ++
         inStyle .normal ([' ', ' '] ++ (threadColumn ti e).text) ++
         inStyle (levelLook e.level) (column 8 (levelWord e.level)) ++ inStyle .normal [' ', ' '] ++
         inStyle ⟨none, true, false⟩ e.name ++ inStyle .normal [' ', ' '] ++
         inStyle (messageLook e.level) e.message ++ inStyle .normal ['\n'])⟩ := by
  intro e cap h1 h2 h3
  have hw := mkEvent_wf env ti maxLen m henv hnum
  have hroom := room requested maxLen hreq
  have hd := Cache.update_length lt Cache.init (Spec.second e.timestamp) Cache.init_length
  have hcl := colored_length_le bf _ ti e hw hd
  have hg := Cache.update_good lt hlt Cache.init (Spec.second e.timestamp) Cache.init_length (Or.inr (Ne.symm hsec))
  have hdt : (Cache.init.update lt (Spec.second e.timestamp)).datetime = stamp lt (Spec.second env.now) := by
    rw [show (Cache.init.update lt (Spec.second e.timestamp)).datetime = stamp lt _ from hg.1, hg.2]; rfl
  have hreal : RealLevel e.level := by
    show RealLevel (mkEvent env ti maxLen m).level
    unfold mkEvent
    cases m.fmt with
    | ok _ => exact hl
    | error _ => exact (show RealLevel Level.error from (by unfold RealLevel; decide))
  rw [consoleRecord_fits lt ti bf Cache.init (fresh cap) e hw (by show 0 + _ ≤ bufferSize requested maxLen; omega)]
  show Term.feed _ ([] ++ _) = _
  rw [List.nil_append, hdt]
  unfold colored
  have hts : e.timestamp = env.now := rfl
  rw [hts]
  have hus : esc ∉ (['.'] ++ fixedDigits 6 (micros env.now) : Text) := by
    intro x
    rcases List.mem_append.1 x with x | x
    · exact absurd x (by decide)
    · exact fixedDigits_no_esc _ _ x
  have hlv : esc ∉ column 8 (levelWord e.level) := column_no_esc (levelName_no_esc _)
  have hth := threadColumn_no_esc ti e h1
  have hsp : esc ∉ ([' ', ' '] : Text) := by decide
  generalize hU : (['.'] ++ fixedDigits 6 (micros env.now) : Text) = U at hus ⊢
  simp only [feed_append]
  have pl : ∀ (st : Style) (sh : List (Char × Style)) (x : Text), esc ∉ x →
      Term.feed ⟨.text, st, sh⟩ x = ⟨.text, st, sh ++ inStyle st x⟩ := fun st sh x hx => feed_plain _ rfl x hx
  have rs : ∀ (st : Style) (sh : List (Char × Style)), Term.feed ⟨.text, st, sh⟩ resetColor = ⟨.text, .normal, sh⟩ :=
    fun st sh => feed_reset _
  have bd : ∀ (sh : List (Char × Style)), Term.feed ⟨.text, .normal, sh⟩ bold = ⟨.text, ⟨none, true, false⟩, sh⟩ :=
    fun sh => feed_bold _ rfl
  have gr : ∀ (sh : List (Char × Style)), Term.feed ⟨.text, .normal, sh⟩ (foreground gray) = ⟨.text, ⟨some (128, 128, 128), false, false⟩, sh⟩ :=
    fun sh => feed_gray _ rfl
  have nl : ∀ (sh : List (Char × Style)), Term.feed ⟨.text, .normal, sh⟩ ['\n'] = ⟨.text, .normal, sh ++ inStyle .normal ['\n']⟩ :=
    fun sh => feed_newline _ rfl
  simp only [pl _ _ _ (stamp_no_esc _ _), gr, pl _ _ _ hus, rs, pl _ _ _ hsp, pl _ _ _ hth, feed_levelStyle bf _ hreal, pl _ _ _ hlv,
    bd, pl _ _ _ h2, feed_textStyle _ hreal, pl _ _ _ h3, nl]
  simp [inStyle]

/-- the hypotheses are met by a warning; its message is shown in the normal style, its level word in bold orange -/
example : (321 ≤ 400 ∨ 161 ≤ 1024) ∧ Spec.second 1700000000123456789 ≠ 0 ∧ (Level.critical ≤ Level.warn ∧ Level.warn ≤ Level.trace) ∧
    (let e := mkEvent ⟨1700000000123456789, 7, []⟩ .id 1024 ⟨"net".toList, .warn, [], .ok "lost".toList⟩
     esc ∉ e.threadName ∧ esc ∉ e.name ∧ esc ∉ e.message ∧
     ((Term.feed ⟨.text, .normal, []⟩
       (consoleRecord (fun _ => ⟨24, 1, 2, 3, 4, 5⟩) .id true false Cache.init (fresh 2048) e).1.out).shown.filter fun x => x.2 ≠ .normal) =
       inStyle ⟨some (128, 128, 128), false, false⟩ ".123456".toList ++ inStyle ⟨some (255, 165, 0), true, false⟩ "Warning ".toList ++
       inStyle ⟨none, true, false⟩ "net".toList) := by
  decide +kernel

end Render

namespace Sink
open Render Spec

/-- **C100**, a coloured console sink used by one thread: whatever is pushed, whenever it is flushed, a terminal that has received everything the sink
has written is in its normal style and outside any sequence. -/
theorem C100_console_sink (cfg : Cfg) (w : World) (hv : cfg.Valid) (bf : Bool) (hk : cfg.kind = .console true bf)
    (ops : List Op) (n : Nat) (t : Term) (ht : Neutral t) :
    ∃ l, Leaf.run (n + 2) (Leaf.new cfg w true) ops = some l ∧ Neutral (t.feed (l.written.flatMap (·.2))) := by
  obtain ⟨l', h1', done, _, hw⟩ := C17_no_loss_no_dup_no_reorder cfg w hv (by rw [hk]; trivial) ops n
  have hc := (run_spec (l := Leaf.new cfg w true) n hv (new_ok cfg w true) ops)
  obtain ⟨l2, h2, _, h3, _⟩ := hc
  rw [h1'] at h2; cases h2
  refine ⟨l', h1', ?_⟩
  have : l'.written.flatMap (·.2) = done.flatMap fun e => (l'.record e).out := by
    rw [List.flatMap_def, hw, List.flatMap_def]
  rw [this]
  have hr : ∀ e, (l'.record e).out = (consoleRecord l'.w.lt l'.cfg.ti true bf Cache.init l'.staging e).1.out := by
    intro e
    unfold Leaf.record
    rw [h3.cfg]
    show (match cfg.kind with | .console color bf => _ | _ => _ : W).out = _
    rw [hk]
  simp only [hr]
  exact feed_all _ _ _ _ _ _ ht

example : ∃ cfg : Cfg, cfg.Valid ∧ cfg.kind = .console true false ∧ ∃ l, Leaf.run 2 (Leaf.new cfg exampleWorld true)
    [.push ⟨"a".toList, .info, [], .ok leaky.message⟩, .flush] = some l ∧ l.written.length = 1 :=
  ⟨Cfg.mk' (.console true false) .trace .none 64 1024 (2 ^ 17) 200, ⟨by decide, by decide⟩, rfl, _, rfl, by decide +kernel⟩

end Sink

namespace SinkFull
open Render Spec

/-- **C100**, a coloured console sink used by any number of threads, with its worker and its destructor: at every moment of every execution a terminal that
has received everything the sink has handed to its stream is in its normal style and outside any sequence. -/
theorem C100_any_threads (c : SinkConc.Cfg) (hcap : 0 < c.capacity) (f : St) (h : Reach c true f) (hk : c.isSyslog = false)
    (lt : LocalTime) (ti : ThreadInfo) (bf : Bool) (cap : Nat)
    (hr : c.render = fun e => (consoleRecord lt ti true bf Cache.init (fresh cap) e).1.out) (t : Term) (ht : Neutral t) :
    Neutral (t.feed (f.gens.flatten ++ f.dev ++ f.sbuf)) := by
  rw [(C72_exactly_once_in_order c hcap f h).2.2 hk, hr]
  exact feed_all _ _ _ _ _ _ ht

/-- a console sink with colour and room for two events -/
def colourCfg : SinkConc.Cfg :=
  { cfg2 .console true with render := fun e => (consoleRecord (fun _ => ⟨24, 1, 2, 3, 4, 5⟩) .none true false Cache.init (fresh 1000) e).1.out }

/-- two threads log, one of them a message that switches to italics and is cut off in a sequence -/
def colourActs : List Act := [.call 1 (.push leaky), .run 1 60, .call 2 (.push (SinkConc.ev ['b'])), .run 2 60]

example : ∃ f, Reach colourCfg true f ∧ f.written.length = 2 ∧ f.written.contains leaky = true ∧ 0 < colourCfg.capacity ∧
    colourCfg.isSyslog = false := by
  have hs : (exec colourCfg colourActs (init colourCfg true)).isSome = true := by decide +kernel
  have hx : (exec colourCfg colourActs (init colourCfg true)).all (fun f => f.written.length == 2 && f.written.contains leaky) = true := by
    decide +kernel
  obtain ⟨f, hf⟩ := Option.isSome_iff_exists.1 hs
  rw [hf] at hx
  simp only [Option.all_some, Bool.and_eq_true, beq_iff_eq] at hx
  exact ⟨f, exec_reach .init hf, hx.1, hx.2, by decide, by decide⟩

end SinkFull

namespace Many
open Render Spec

/-- **C100**, a whole program with any number of threads: at every moment of every execution a terminal that has received everything a coloured console
sink has handed to its stream is in its normal style and outside any sequence. -/
theorem C100_program (S : Setup) (hS : S.Sound) (s : St) (h : Reach S s) (i : Nat) (ho : (S.leaf i).opened = true)
    (hk : (S.leaf i).conc.isSyslog = false) (lt : LocalTime) (bf : Bool) (cap : Nat)
    (hr : (S.leaf i).conc.render = fun e => (consoleRecord lt (S.leaf i).ti true bf Cache.init (fresh cap) e).1.out)
    (t : Term) (ht : Neutral t) :
    Neutral (t.feed ((s.leaf i).gens.flatten ++ (s.leaf i).dev ++ (s.leaf i).sbuf)) := by
  obtain ⟨w, h1, _⟩ := C89_file_contents S hS s h i ho hk
  rw [h1, hr]
  have : (w.flatMap fun x => (consoleRecord lt (S.leaf i).ti true bf Cache.init (fresh cap) x.2).1.out) =
      (w.map (·.2)).flatMap fun e => (consoleRecord lt (S.leaf i).ti true bf Cache.init (fresh cap) e).1.out := by
    rw [List.flatMap_map]
  rw [this]
  exact feed_all _ _ _ _ _ _ ht

/-- a program all of whose sinks are coloured consoles -/
def colourSetup : Setup :=
  ⟨fun _ => .leaf 0, fun _ => ⟨SinkFull.colourCfg, .debug, .none, 1024, true⟩, fun r => r.text, fun r => .ok r.text⟩

/-- the hypotheses about the program are met by it (a sink with events: see the example above) -/
example : colourSetup.Sound ∧ (colourSetup.leaf 0).opened = true ∧ (colourSetup.leaf 0).conc.isSyslog = false ∧
    (colourSetup.leaf 0).conc.render =
      (fun e => (consoleRecord (fun _ => ⟨24, 1, 2, 3, 4, 5⟩) (colourSetup.leaf 0).ti true false Cache.init (fresh 1000) e).1.out) ∧
    Reach colourSetup (init colourSetup true id) :=
  ⟨⟨fun _ => trivial, fun _ => by show 0 < SinkFull.colourCfg.capacity; decide⟩, rfl, by decide, rfl, .init _ _ fun _ => .refl _⟩

end Many
end Soralog
