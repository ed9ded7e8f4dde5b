import Verif.Props.ManyEnd
/-!
# C11 and C107 for a coloured console that has received many records
-/
namespace Soralog
namespace Render
open Spec (stripEscapes)

theorem strip_m (x b : Text) : stripEscapes (x ++ 'm' :: b) = stripEscapes (x ++ ['m']) ++ stripEscapes b ∧
    stripEscapes.skip (x ++ 'm' :: b) = stripEscapes.skip (x ++ ['m']) ++ stripEscapes b := by
  induction x with
  | nil => exact ⟨rfl, rfl⟩
  | cons c x ih =>
    refine ⟨?_, ?_⟩
    · simp only [List.cons_append, stripEscapes]
      split
      · exact ih.2
      · rw [ih.1]; rfl
    · simp only [List.cons_append, stripEscapes.skip]
      split
      · exact ih.1
      · exact ih.2

/-- a coloured record is over when its text is -/
theorem strip_colored_append (bf : Bool) (dt : Text) (ti : ThreadInfo) (e : Event) (b : Text) :
    stripEscapes (colored bf dt ti e ++ b) = stripEscapes (colored bf dt ti e) ++ stripEscapes b := by
  have e0 : ∀ p : Text, ∃ x, p ++ resetColor ++ ['\n'] = x ++ 'm' :: ['\n'] := fun p => ⟨p ++ [esc, '[', '0'], by simp [resetColor]⟩
  have e1 : ∃ x, colored bf dt ti e = x ++ 'm' :: ['\n'] := by unfold colored; exact e0 _
  obtain ⟨x, hx⟩ := e1
  rw [hx, List.append_assoc]
  show stripEscapes (x ++ 'm' :: (['\n'] ++ b)) = _
  rw [(strip_m x _).1, (strip_m x ['\n']).1, List.append_assoc]
  rfl

/-- the coloured record of an event, and what follows it -/
theorem strip_record_append (lt : LocalTime) (requested maxLen : Nat) (hreq : 321 ≤ requested ∨ 161 ≤ maxLen) (ti : ThreadInfo) (bf : Bool) (env : Env) (m : Msg)
    (henv : 0 ≤ env.now) (hnum : env.threadNumber < 2 ^ 64) (b : Text) :
    let r := (consoleRecord lt ti true bf Cache.init (fresh (bufferSize requested maxLen)) (mkEvent env ti maxLen m)).1.out
    stripEscapes (r ++ b) = stripEscapes r ++ stripEscapes b := by
  have hw := mkEvent_wf env ti maxLen m henv hnum
  have hroom := room requested maxLen hreq
  have hd := Cache.update_length lt Cache.init (Spec.second (mkEvent env ti maxLen m).timestamp) Cache.init_length
  have hcl := colored_length_le bf _ ti _ hw hd
  rw [consoleRecord_fits lt ti bf Cache.init (fresh (bufferSize requested maxLen)) _ hw (by show 0 + _ ≤ bufferSize requested maxLen; omega)]
  show stripEscapes (([] ++ _) ++ b) = stripEscapes ([] ++ _) ++ _
  rw [List.nil_append]
  exact strip_colored_append _ _ _ _ _

/-- the texts of the event contain no ESC -/
def Escapeless (e : Event) : Prop := esc ∉ e.threadName ∧ esc ∉ e.name ∧ esc ∉ e.message

/-- **C11**, many records.  Whatever log calls are made, by any threads, at any times after the epoch, with any names, levels and texts without ESC: removing
the escape sequences from all that a coloured console has written gives exactly what it would have written without colour. -/
theorem C11_whole_log (lt : LocalTime) (hlt : ∀ s, (lt s).Ok) (requested maxLen : Nat) (hreq : 321 ≤ requested ∨ 161 ≤ maxLen) (ti : ThreadInfo) (bf : Bool)
    (calls : List (Env × Msg)) (h : ∀ c ∈ calls, 0 ≤ c.1.now ∧ c.1.threadNumber < 2 ^ 64 ∧ Escapeless (mkEvent c.1 ti maxLen c.2)) :
    let written := fun color => calls.flatMap fun c =>
      (consoleRecord lt ti color bf Cache.init (fresh (bufferSize requested maxLen)) (mkEvent c.1 ti maxLen c.2)).1.out
    stripEscapes (written true) = written false := by
  intro written
  show stripEscapes (calls.flatMap _) = calls.flatMap _
  clear written
  induction calls with
  | nil => rfl
  | cons c cs ih =>
    obtain ⟨h1, h2, h3, h4, h5⟩ := h c List.mem_cons_self
    have hc := C11_color_only_escapes lt hlt requested maxLen hreq ti bf c.1 c.2 h1 h2 h3 h4 h5
    rw [List.flatMap_cons, List.flatMap_cons, strip_record_append lt requested maxLen hreq ti bf c.1 c.2 h1 h2,
      ih fun x hx => h x (List.mem_cons_of_mem _ hx), hc]

/-- two calls, in colour -/
example : let calls : List (Env × Msg) := [(⟨1700000000000000000, 1, ['a']⟩, ⟨['x'], .warn, ['y'], .ok ['y']⟩), (⟨1700000001000000000, 2, ['b']⟩, ⟨['z'], .error, ['u'], .ok ['u']⟩)]
    ∀ c ∈ calls, 0 ≤ c.1.now ∧ c.1.threadNumber < 2 ^ 64 ∧ Escapeless (mkEvent c.1 .name 1024 c.2) := by
  intro calls c hc
  have key : ∀ c ∈ calls, 0 ≤ c.1.now ∧ c.1.threadNumber < 2 ^ 64 ∧ esc ∉ (mkEvent c.1 .name 1024 c.2).threadName ∧ esc ∉ (mkEvent c.1 .name 1024 c.2).name ∧
      esc ∉ (mkEvent c.1 .name 1024 c.2).message := by decide
  exact key c hc

end Render

namespace Many
open Spec (stripEscapes)
open Render (Escapeless)

/-- an event in time is one of a log call in time -/
theorem timely_env {w : Sink.World} {o : Bool} {cf : Sink.Cfg} {e : Event} {m : Msg} (he : EventOf (leafOf w o cf) e m) (ht : Timely e) :
    ∃ env : Env, e = mkEvent env cf.ti cf.maxLen m ∧ 0 ≤ env.now ∧ env.threadNumber < 2 ^ 64 := by
  obtain ⟨env, he⟩ := he
  have he : e = mkEvent env cf.ti cf.maxLen m := he
  obtain ⟨h1, h2, h3⟩ := ht
  have hnow : e.timestamp = env.now := by rw [he]; unfold mkEvent; split <;> rfl
  rw [hnow] at h1
  cases hti : cf.ti with
  | none => exact ⟨{ env with threadNumber := 0 }, by rw [he, hti]; rfl, h1, by show 0 < 2 ^ 64; decide⟩
  | name =>
    have hnum : e.threadNumber = env.threadNumber := by rw [he, hti]; unfold mkEvent; cases m.fmt <;> rfl
    exact ⟨env, by rw [he, hti], h1, hnum ▸ h3⟩
  | id =>
    have hnum : e.threadNumber = env.threadNumber := by rw [he, hti]; unfold mkEvent; cases m.fmt <;> rfl
    exact ⟨env, by rw [he, hti], h1, hnum ▸ h3⟩

/-- one record of a coloured console of a document, and what follows it -/
theorem colour_line {w : Sink.World} {o : Bool} {cf : Sink.Cfg} {bf : Bool} (hk : cf.kind = .console true bf) (hr : Whole.Roomy cf)
    (hlt : ∀ s, (w.lt s).Ok) {e : Event} {m : Msg} (he : EventOf (leafOf w o cf) e m) (ht : Timely e) (hx : Escapeless e) (b : Text) :
    stripEscapes ((leafOf w o cf).conc.render e ++ b) = Whole.lineOf w.lt cf.ti e ++ stripEscapes b := by
  have hroom : 321 ≤ cf.maxBuffer ∧ 2 * cf.maxLen ≤ cf.maxBuffer := by unfold Whole.Roomy at hr; rw [hk] at hr; exact hr
  have hb : Render.bufferSize cf.maxBuffer cf.maxLen = cf.maxBuffer := by
    unfold Render.bufferSize
    split
    · omega
    · rfl
  have hplain := timely_line (w := w) (o := o) (cf := { cf with kind := .console false bf }) trivial (fun _ e => by cases e) hroom hlt he ht
  obtain ⟨env, e1, e2, e3⟩ := timely_env he ht
  have h1 := Render.strip_record_append w.lt cf.maxBuffer cf.maxLen (.inl hroom.1) cf.ti bf env m e2 e3 b
  rw [← e1, hb] at h1
  have h2 := Render.C11_color_only_escapes w.lt hlt cf.maxBuffer cf.maxLen (.inl hroom.1) cf.ti bf env m e2 e3
  dsimp only at h2
  rw [← e1, hb] at h2
  have h2 := h2 hx.1 hx.2.1 hx.2.2
  have hren : (leafOf w o cf).conc.render e = (Render.consoleRecord w.lt cf.ti true bf Render.Cache.init (Render.fresh cf.maxBuffer) e).1.out := by
    show ((Sink.Leaf.new cf w true).record e).out = _
    unfold Sink.Leaf.record
    rw [show (Sink.Leaf.new cf w true).cfg = cf from rfl, hk]
    rfl
  rw [hren, h1, h2]
  exact congrArg (· ++ stripEscapes b) hplain

theorem colour_lines {w : Sink.World} {o : Bool} {cf : Sink.Cfg} {bf : Bool} (hk : cf.kind = .console true bf) (hr : Whole.Roomy cf)
    (hlt : ∀ s, (w.lt s).Ok) {es : List (Tid × Event)} (h : ∀ x ∈ es, (∃ m, EventOf (leafOf w o cf) x.2 m) ∧ Timely x.2 ∧ Escapeless x.2) :
    stripEscapes (es.flatMap fun x => (leafOf w o cf).conc.render x.2) = es.flatMap fun x => Whole.lineOf w.lt cf.ti x.2 := by
  induction es with
  | nil => rfl
  | cons x es ih =>
    obtain ⟨⟨m, hm⟩, h1, h2⟩ := h x List.mem_cons_self
    rw [List.flatMap_cons, List.flatMap_cons, colour_line hk hr hlt hm h1 h2, ih fun x hx => h x (List.mem_cons_of_mem _ hx)]

variable {W : Yaml.World} {F : Nat} {what : Text} {c : Yaml.Configurator} {debug : Bool} {ord : List Nat → List Nat} {b : Bool}
  {r : Yaml.Result} {y : Yaml.St} {E : Whole.Env} {format : System.Conc.Rec → Text} {fmt : System.Conc.Rec → FmtResult}

/-- **C107**, the text of a coloured console, at any moment.  What it has received, without the escape sequences, consists of one line of the layout of C10 per
event, and of each thread that is not in a call these are events of the beginning of what the document says it owes, in order.  (Texts without ESC.) -/
theorem C107_coloured_lines (ho : ∀ l, (ord l).Perm l) (h : Yaml.configure W F what c (Yaml.new debug ord b) = .ok r y)
    (hn : ∀ k lv, y.specs k ≠ .multi lv []) {G : Text → Text} (hG : Registered y G) (S : Setup) (hS : S = setupOf E format fmt y.specs) :
    ∀ done, Reach S (configured S y.sys done) → ∀ calls s, Logging S G (configured S y.sys done) calls s →
        ∀ i cf bf, (y.specs i).cfg = some cf → cf.kind = .console true bf →
          (∀ t, ((E.world i).lt t).Ok) → (∀ x ∈ acceptedBy (s.leaf i), Timely x.2 ∧ Escapeless x.2) →
          ∃ w : List (Tid × Event), stripEscapes ((s.leaf i).gens.flatten ++ (s.leaf i).dev ++ (s.leaf i).sbuf) = w.flatMap (fun x => Whole.lineOf (E.world i).lt cf.ti x.2) ∧
            w <+: acceptedBy (s.leaf i) ∧
            ∀ t, s.sys.pc t = .idle → ∃ first rest, owedBy S y G t i calls = first ++ rest ∧ Matches (EventOf (S.leaf i)) (ofThread t w) first := by
  obtain ⟨hw, h0, _⟩ := configured_reach S (conf_reach ho h)
  intro done hr calls s hl i cf bf hc hk hlt htime
  have hinv := logging_inv hG h0 hw hr hl
  have hSound : S.Sound := hS ▸ (C107_configured ho h).2 hn
  have hleaf : S.leaf i = leafOf (E.world i) (E.opened i) cf := by rw [hS]; exact setup_leaf hc
  have hopen : (S.leaf i).opened = true := by
    rw [hleaf]
    show (match cf.kind with | .file => E.opened i | _ => true) = true
    rw [hk]
  have hsys : (S.leaf i).conc.isSyslog = false := by
    rw [hleaf]
    show decide (kindOf cf.kind = .syslog) = false
    rw [hk]; rfl
  obtain ⟨w, h1, h2, h3⟩ := C89_file_contents S hSound s hinv.reach i hopen hsys
  refine ⟨w, ?_, h2, fun t hi => ?_⟩
  · rw [h1, hleaf]
    refine colour_lines hk (conf_roomy h hc (by rw [hk]; trivial)) hlt fun x hx => ?_
    have hxa : x ∈ acceptedBy (s.leaf i) := h2.subset hx
    obtain ⟨m, hm⟩ := accepted_event hSound hinv.reach hxa
    rw [hleaf] at hm
    exact ⟨⟨m, hm⟩, htime x hxa⟩
  · obtain ⟨first, rest, h4, h5⟩ := h3 t
    rw [addressed_owed hS hinv hi i] at h4
    exact ⟨first, rest, h4, h5⟩

/-- **C107**, the text of a coloured console, in the end: as `C107_in_the_end`, after the escape sequences have been removed.  (Texts without ESC.) -/
theorem C107_coloured_in_the_end (ho : ∀ l, (ord l).Perm l) (h : Yaml.configure W F what c (Yaml.new debug ord b) = .ok r y)
    (hn : ∀ k lv, y.specs k ≠ .multi lv []) {G : Text → Text} (hG : Registered y G) (S : Setup) (hS : S = setupOf E format fmt y.specs)
    (σ : Nat → Lock.Deed) (R : Nat → Lock.St) (hE : Lock.Endless S σ R) (hl : Lock.NobodyStarves R) (hw : Lock.WaitsEnd R) (hv : Lock.StoresSeen σ)
    (N : Nat) (hN : Lock.NoMoreCalls σ N) (hk : Lock.SinksKept S (R N).prog)
    (done : List System.Conc.Done) (hr : Reach S (configured S y.sys done)) (calls : List LogCall) (hL : Logging S G (configured S y.sys done) calls (R N).prog)
    (i : Nat) (cf : Sink.Cfg) (bf : Bool) (hc : (y.specs i).cfg = some cf) (hcol : cf.kind = .console true bf) (hlat : cf.latency ≠ 0)
    (hlt : ∀ t, ((E.world i).lt t).Ok) :
    ∃ m, N ≤ m ∧ ∀ k, m ≤ k → (∀ t, t ≠ SinkConc.workerTid → Lock.AtRest (R k) t) ∧ ∃ w : List (Tid × Event),
      (∀ t, t ≠ SinkConc.workerTid → Matches (EventOf (S.leaf i)) (ofThread t w) (owedBy S y G t i calls)) ∧
      ((∀ x ∈ w, Timely x.2 ∧ Escapeless x.2) →
        stripEscapes (((R k).prog.leaf i).gens.flatten ++ ((R k).prog.leaf i).dev ++ ((R k).prog.leaf i).sbuf) = w.flatMap (fun x => Whole.lineOf (E.world i).lt cf.ti x.2)) := by
  obtain ⟨hwf, h0, _⟩ := configured_reach S (conf_reach ho h)
  have hSound : S.Sound := hS ▸ (C107_configured ho h).2 hn
  have hleaf : S.leaf i = leafOf (E.world i) (E.opened i) cf := by rw [hS]; exact setup_leaf hc
  have hopen : (S.leaf i).opened = true := by
    rw [hleaf]
    show (match cf.kind with | .file => E.opened i | _ => true) = true
    rw [hcol]
  have hsys : (S.leaf i).conc.isSyslog = false := by
    rw [hleaf]
    show decide (kindOf cf.kind = .syslog) = false
    rw [hcol]; rfl
  have hl0 : (S.leaf i).conc.latency0 = false := by
    rw [hleaf]
    exact decide_eq_false hlat
  obtain ⟨m1, g1, h1⟩ := Lock.C102_comes_to_rest S hSound.room σ R hE hl hw hv N hN hk
  obtain ⟨m2, g2, h2⟩ := Lock.C102_log_complete S hSound σ R hE hl hw hv N hN hk i hopen hl0
  refine ⟨m1 + m2, by omega, fun k hk' => ?_⟩
  have hrest := (h1 k (by omega)).1
  obtain ⟨w, h3, h5, _⟩ := h2 k (by omega)
  have hLk := Lock.logging_stays hE hN hL (k - N)
  rw [show N + (k - N) = k by omega] at hLk
  have hinv := logging_inv hG h0 hwf hr hLk
  refine ⟨hrest, w, fun t ht => ?_, fun hgood => ?_⟩
  · rw [← addressed_owed hS hinv (hrest t ht).1 i]; exact h3 t
  · rw [h5 hsys, hleaf]
    refine colour_lines hcol (conf_roomy h hc (by rw [hcol]; trivial)) hlt fun x hx => ⟨?_, hgood x hx⟩
    obtain ⟨msg, hmsg⟩ := (h3 x.1).left (List.mem_map.2 ⟨x, List.mem_filter.2 ⟨hx, by simp⟩, rfl⟩ : x.2 ∈ ofThread x.1 w)
    rw [hleaf] at hmsg
    exact ⟨msg, hmsg⟩

/-! ### the theorems apply

A document with the coloured console "con" of level info and the group "a" of level debug that uses it; threads 1 and 2 log at the same time. -/

def conDoc : Yaml.World := Yaml.demo [
  /- 16 -/ .map [(5, 17), (6, 18)],
  /- 17 -/ .seq [19],
  /- 18 -/ .seq [20],
  /- 19 -/ .map [(0, 21), (1, 22), (12, 23), (2, 24)],
  /- 20 -/ .map [(0, 25), (3, 21), (2, 26)],
  /- 21 -/ .scalar "con".toList, .scalar "console".toList, .scalar "true".toList, .scalar "info".toList, .scalar "a".toList,
  /- 26 -/ .scalar "debug".toList]

def conEnv : Whole.Env := ⟨conDoc, fun _ => Sink.exampleWorld, fun _ => true⟩

def conPair : Option (Yaml.Result × Yaml.St) := pairOf (Yaml.configure conDoc 20 [] (.yaml (.document 16)) (Yaml.new false id false))
theorem conPair_some : conPair.isSome = true := by decide +kernel
def conY : Yaml.St := (conPair.get conPair_some).2

theorem con_conf : Yaml.configure conDoc 20 [] (.yaml (.document 16)) (Yaml.new false id false) = .ok (conPair.get conPair_some).1 conY :=
  pairOf_ok (x := conPair.get conPair_some) (Option.some_get conPair_some).symm

def conCfg : Sink.Cfg := ⟨.console true false, .info, .none, 64, 1024, 2 ^ 17, 200⟩

theorem con_facts : conY.sys.nsinks = 2 ∧ conY.specs 0 = .nowhere ∧ (conY.specs 1).cfg = some conCfg ∧
    conY.sys.groups.find ['a'] = some 0 := by decide +kernel

theorem con_noEmpty (k : Nat) (lv : Level) : conY.specs k ≠ .multi lv [] := by
  match k with
  | 0 => rw [con_facts.2.1]; intro h; cases h
  | 1 => intro h; have := con_facts.2.2.1; rw [h] at this; cases this
  | k + 2 => rw [(conf_sinks con_conf).1.beyond (k + 2) (by rw [con_facts.1]; omega)]; intro h; cases h

theorem con_registered : Registered conY docG := fun _ => ⟨(by decide : ['a'] ≠ System.star), 0, con_facts.2.2.2⟩

def conS : Setup := setupOf conEnv (fun r => r.text) (fun r => .ok r.text) conY.specs

theorem con_leaf1 : conS.leaf 1 = leafOf (conEnv.world 1) (conEnv.opened 1) conCfg := setup_leaf con_facts.2.2.1

theorem con_serves (q : Req) : Serves (conS.leaf 1) q (docCall q) := by
  rw [con_leaf1]
  cases q with
  | push m => exact Serves.push (c := leafOf (conEnv.world 1) (conEnv.opened 1) conCfg) m ⟨1700000000000000000, 1, []⟩
  | flush => exact .flush
  | asyncFlush => exact .asyncFlush
  | rotate => exact .rotate

def conRan : Option (List LogCall × St) := docRun conS (docActs.take 29) ([], configured conS conY.sys [])
theorem conRan_some : conRan.isSome = true := by decide +kernel
def conMid : List LogCall × St := conRan.get conRan_some

theorem conMid_logging (d : List System.Conc.Done) : Logging conS docG (configured conS conY.sys d) conMid.1 (withDone d conMid.2) := by
  have h : docRun conS (docActs.take 29) ([], configured conS conY.sys []) = some conMid := (Option.some_get conRan_some).symm
  have hs : withDone d (configured conS conY.sys []) = configured conS conY.sys d := by simp [withDone, later, configured]
  refine (docRun_logging con_serves (x := ([], configured conS conY.sys [])) (x' := conMid) ⟨fun j _ t ht => ?_, fun t ht => ⟨rfl, ?_, rfl⟩⟩ h (hs ▸ .start)).1
  · show (SinkFull.init _ _).pc t = _
    simp [SinkFull.init, ht]
  · have hw : t ≠ SinkConc.workerTid := fun e => by rw [e] at ht; exact absurd ht (by decide)
    show (SinkFull.init _ _).pc t = _
    simp [SinkFull.init, hw]

instance (e : Event) : Decidable (Escapeless e) := (by unfold Escapeless; infer_instance)

theorem conMid_good : ∀ x ∈ acceptedBy (conMid.2.leaf 1), Timely x.2 ∧ Escapeless x.2 := by
  have h : ((acceptedBy (conMid.2.leaf 1)).all fun x => docTimely x.2 && decide (Escapeless x.2)) = true := by decide +kernel
  intro x hx
  have := List.all_eq_true.1 h x hx
  rw [Bool.and_eq_true] at this
  exact ⟨docTimely_iff this.1, of_decide_eq_true this.2⟩

theorem conMid_facts : conMid.2.sys.pc 1 = .idle ∧ ((acceptedBy (conMid.2.leaf 1)).map (·.2.message)) = ["one".toList, "two".toList] ∧
    Spec.stripEscapes ((conMid.2.leaf 1).gens.flatten ++ (conMid.2.leaf 1).dev ++ (conMid.2.leaf 1).sbuf) =
      "24.01.02 03:04:05.000000  Info      l  one\n24.01.02 03:04:05.000000  Warning   l  two\n".toList ∧
    Render.esc ∈ (conMid.2.leaf 1).gens.flatten ++ (conMid.2.leaf 1).dev ++ (conMid.2.leaf 1).sbuf := by decide +kernel

theorem conMid_run : docRun conS (docActs.take 29) ([], configured conS conY.sys []) = some conMid := (Option.some_get conRan_some).symm

theorem conMid_more : (conMid.2.leaf 1).owner.isNone = true ∧ owedBy conS conY docG 2 1 conMid.1 = [⟨['l'], .warn, "two".toList, .ok "two".toList⟩] := by decide +kernel

theorem con_lt (t : Int) : ((conEnv.world 1).lt t).Ok := (by show (⟨24, 1, 2, 3, 4, 5⟩ : Render.Tm).Ok; unfold Render.Tm.Ok; decide)

attribute [irreducible] conMid conY

/-- all hypotheses hold; the console has received coloured records -/
example : ∃ w : List (Tid × Event), "24.01.02 03:04:05.000000  Info      l  one\n24.01.02 03:04:05.000000  Warning   l  two\n".toList =
    w.flatMap (fun x => Whole.lineOf (conEnv.world 1).lt .none x.2) := by
  obtain ⟨done, hr⟩ := (C107_configured (E := conEnv) (format := fun r => r.text) (fmt := fun r => .ok r.text) (fun _ => .refl _) con_conf).1
  obtain ⟨w, h1, _⟩ := C107_coloured_lines (fun _ => .refl _) con_conf con_noEmpty con_registered conS rfl done hr _ _ (conMid_logging done) 1
    conCfg false con_facts.2.2.1 rfl con_lt conMid_good
  exact ⟨w, conMid_facts.2.2.1.symm.trans h1⟩

theorem conMid_owner (j : Nat) : (conMid.2.leaf j).owner = none := by
  by_cases hj : j = 1
  · rw [hj]; exact Option.isNone_iff_eq_none.1 conMid_more.1
  · rw [Lock.docRun_away conMid_run hj]; rfl

/-- … and in the end -/
example : ∃ (σ : Nat → Lock.Deed) (R : Nat → Lock.St), Lock.Endless conS σ R ∧ ∃ m, ∀ k, m ≤ k → ∃ w : List (Tid × Event),
    Matches (EventOf (conS.leaf 1)) (ofThread 2 w) [⟨['l'], .warn, "two".toList, .ok "two".toList⟩] ∧ ((∀ x ∈ w, Timely x.2 ∧ Escapeless x.2) →
      stripEscapes (((R k).prog.leaf 1).gens.flatten ++ ((R k).prog.leaf 1).dev ++ ((R k).prog.leaf 1).sbuf) = w.flatMap (fun x => Whole.lineOf (conEnv.world 1).lt .none x.2)) := by
  obtain ⟨done, hr, hall⟩ := Lock.C112_configured (fun _ => .refl _) con_conf conS
  have h := hall docG con_registered _ _ (conMid_logging done)
  have hSound : conS.Sound := (C107_configured (fun _ => .refl _) con_conf).2 con_noEmpty
  have hkept : Lock.SinksKept conS (withDone done conMid.2) := fun _ i _ => conMid_owner i
  obtain ⟨σ, R, e0, hE, hl, hw, hv, hN⟩ := Lock.C102_can_go_on conS hSound.room _ h hkept
  obtain ⟨m, _, hm⟩ := C107_coloured_in_the_end (fun _ => .refl _) con_conf con_noEmpty con_registered conS rfl σ R hE hl hw hv 0 hN (e0 ▸ hkept) done
    (Lock.reach_prog hr) conMid.1 (e0 ▸ conMid_logging done) 1 conCfg false con_facts.2.2.1 rfl (by decide) con_lt
  refine ⟨σ, R, hE, m, fun k hk => ?_⟩
  obtain ⟨_, w, h1, h2⟩ := hm k hk
  have a2 := h1 2 (by decide)
  rw [conMid_more.2] at a2
  exact ⟨w, a2, h2⟩

end Many
end Soralog
