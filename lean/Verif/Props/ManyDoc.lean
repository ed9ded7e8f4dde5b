import Verif.Proofs.ManyDoc
import Verif.Props.Whole
/-!
# C107: several threads log to what a document configured
-/
namespace Soralog
namespace Many
open Spec (Admits deliveries)
open System.Conc (passes)
open SinkFull (acceptedFrom)

/-- the groups the program uses are registered and are not used under the name `*` -/
def Registered (y : Yaml.St) (G : Text → Text) : Prop := ∀ n, G n ≠ System.star ∧ ∃ g, y.sys.groups.find (G n) = some g

variable {W : Yaml.World} {F : Nat} {what : Text} {c : Yaml.Configurator} {debug : Bool} {ord : List Nat → List Nat} {b : Bool}
  {r : Yaml.Result} {y : Yaml.St} {E : Whole.Env} {format : System.Conc.Rec → Text} {fmt : System.Conc.Rec → FmtResult}

/-- **C107**, the start.  When `configure` has returned, the program is in a state of the model of many threads: the one with the configured
system, its sinks newly constructed, nobody inside a call.  Unless a multisink is without underlying sinks, the sinks are sound. -/
theorem C107_configured (ho : ∀ l, (ord l).Perm l) (h : Yaml.configure W F what c (Yaml.new debug ord b) = .ok r y) :
    (∃ done, Reach (setupOf E format fmt y.specs) (configured (setupOf E format fmt y.specs) y.sys done)) ∧
    ((∀ k lv, y.specs k ≠ .multi lv []) → (setupOf E format fmt y.specs).Sound) := by
  refine ⟨(configured_reach _ (conf_reach ho h)).2.2.2, fun hn => ⟨fun k => Whole.tree_full (conf_sinks h).1.good hn k, fun i => ?_⟩⟩
  show 0 < (match (y.specs i).cfg with | some c => leafOf (E.world i) (E.opened i) c | none => leafNowhere : LeafCfg).conc.capacity
  cases hc : (y.specs i).cfg with
  | none => exact (by decide : 0 < 1024)
  | some cf =>
    have := ((conf_sinks h).2 i cf hc).1.1
    show 0 < cf.capacity
    omega

theorem setup_level (i : Nat) : (setupOf E format fmt y.specs).level i = Whole.ownLevel (y.specs i) := by
  show (match (y.specs i).cfg with | some c => leafOf (E.world i) (E.opened i) c | none => leafNowhere : LeafCfg).level = _
  unfold Whole.ownLevel
  cases (y.specs i).cfg <;> rfl

/-- what is said is what is owed -/
theorem addressed_owed {S : Setup} (hS : S = setupOf E format fmt y.specs) {G : Text → Text} {calls : List LogCall} {s : St}
    (h : LogInv S G y.sys calls s) {t : Tid} (hi : s.sys.pc t = .idle) (i : Nat) : addressed S t i s.said = owedBy S y G t i calls := by
  have hp : pending S y.sys G s.sys t = [] := by unfold pending; rw [hi]
  have hh := h.hist t
  rw [hp, List.append_nil] at hh
  unfold addressed owedBy
  rw [← hh, List.flatMap_assoc]
  congr 1
  funext cl
  unfold saidFor
  cases y.sys.groups.find (G cl.logger) with
  | none => rfl
  | some g =>
    dsimp only
    have hpa : passes (y.sys.grp g).level cl.record ↔ Admits (y.sys.grp g).level cl.record.level := by
      unfold passes Admits Spec.Real
      constructor
      · rintro ⟨a, b, c⟩; exact ⟨⟨b, c⟩, a⟩
      · rintro ⟨⟨b, c⟩, a⟩; exact ⟨a, b, c⟩
    by_cases hq : passes (y.sys.grp g).level cl.record
    · rw [if_pos hq, if_pos (hpa.1 hq)]
      cases (y.sys.grp g).sink with
      | none => rfl
      | some k =>
        simp only [List.flatMap_cons, List.flatMap_nil, List.append_nil]
        unfold Whole.owedThrough
        have e : S.level = fun i => Whole.ownLevel (y.specs i) := by funext i; rw [hS]; exact setup_level i
        rw [e, hS]
        rfl
    · rw [if_neg hq, if_neg (fun e => hq (hpa.2 e))]
      rfl

/-- **C107**, delivery.  A document has been read, no multisink of it is without underlying sinks.  Then, in every execution of any number of
threads that get loggers from its groups, log, flush and drop loggers, and of the sinks' workers: when a thread is inside no call, each sink has
accepted from it exactly the messages the document says it has to -- those of the log calls the level of the logger's group admits, once per
admitting path from the group's sink -- in the order of the calls. -/
theorem C107_delivered (ho : ∀ l, (ord l).Perm l) (h : Yaml.configure W F what c (Yaml.new debug ord b) = .ok r y)
    (hn : ∀ k lv, y.specs k ≠ .multi lv []) {G : Text → Text} (hG : Registered y G) (S : Setup) (hS : S = setupOf E format fmt y.specs) :
    ∀ done, Reach S (configured S y.sys done) → ∀ calls s, Logging S G (configured S y.sys done) calls s → ∀ t, s.sys.pc t = .idle → Free s t → ∀ i,
        Matches (EventOf (S.leaf i)) (acceptedFrom t (s.leaf i)) (owedBy S y G t i calls) := by
  obtain ⟨hw, h0, _⟩ := configured_reach S (conf_reach ho h)
  intro done hr calls s hl
  intro t hi hf i
  have hinv := logging_inv hG h0 hw hr hl
  have hSound : S.Sound := hS ▸ (C107_configured ho h).2 hn
  rw [← addressed_owed hS hinv hi i]
  exact C89_delivered_once_in_order S hSound s hinv.reach t hf i

/-- the text of an event of a console without colours or a file of a document -/
theorem render_line {w : Sink.World} {o : Bool} {cf : Sink.Cfg} (hk : Sink.Stream cf.kind) (hcol : ∀ b, cf.kind ≠ .console true b) (hr : Whole.Roomy cf)
    (hlt : ∀ s, (w.lt s).Ok) {env : Env} (h1 : 0 ≤ env.now) (h2 : env.threadNumber < 2 ^ 64) (h3 : Spec.second env.now ≠ 0) (m : Msg) :
    (leafOf w o cf).conc.render (mkEvent env cf.ti cf.maxLen m) = Whole.lineOf w.lt cf.ti (mkEvent env cf.ti cf.maxLen m) :=
  Whole.record_line (l := Sink.Leaf.new cf { w with env := fun _ => env } true) hk hr (fun _ => ⟨h1, h2⟩) hlt (fun _ => h3) hcol 0 m

/-- the clock showed a time after the first second of the epoch, the number of the thread fits 64 bits -/
def Timely (e : Event) : Prop := 0 ≤ e.timestamp ∧ Spec.second e.timestamp ≠ 0 ∧ e.threadNumber < 2 ^ 64

theorem Matches.left {α β : Type} {rel : α → β → Prop} {as : List α} {bs : List β} (h : Matches rel as bs) {a : α} (ha : a ∈ as) : ∃ x, rel a x := by
  induction h with
  | nil => cases ha
  | cons hr _ ih =>
    rcases List.mem_cons.1 ha with rfl | ha
    · exact ⟨_, hr⟩
    · exact ih ha

theorem flatMap_same {α β : Type} {f g : α → List β} {l : List α} (h : ∀ x ∈ l, f x = g x) : l.flatMap f = l.flatMap g := by
  induction l with
  | nil => rfl
  | cons x l ih => rw [List.flatMap_cons, List.flatMap_cons, h x List.mem_cons_self, ih fun x hx => h x (List.mem_cons_of_mem _ hx)]

theorem accepted_event {S : Setup} (hS : S.Sound) {s : St} (h : Reach S s) {i : Nat} {x : Tid × Event} (hx : x ∈ acceptedBy (s.leaf i)) :
    ∃ m, EventOf (S.leaf i) x.2 m := by
  obtain ⟨done, rest, _, hm⟩ := C89_never_too_much S hS s h x.1 i
  rw [← acceptedBy_filter] at hm
  exact hm.left (List.mem_map.2 ⟨x, List.mem_filter.2 ⟨hx, by simp⟩, rfl⟩)

theorem timely_line {w : Sink.World} {o : Bool} {cf : Sink.Cfg} (hk : Sink.Stream cf.kind) (hcol : ∀ b, cf.kind ≠ .console true b) (hr : Whole.Roomy cf)
    (hlt : ∀ s, (w.lt s).Ok) {e : Event} {m : Msg} (he : EventOf (leafOf w o cf) e m) (ht : Timely e) :
    (leafOf w o cf).conc.render e = Whole.lineOf w.lt cf.ti e := by
  obtain ⟨env, he⟩ := he
  have he : e = mkEvent env cf.ti cf.maxLen m := he
  obtain ⟨h1, h2, h3⟩ := ht
  have hnow : e.timestamp = env.now := by rw [he]; unfold mkEvent; split <;> rfl
  rw [hnow] at h1 h2
  cases hti : cf.ti with
  | none =>
    have e2 : e = mkEvent { env with threadNumber := 0 } cf.ti cf.maxLen m := by rw [he, hti]; rfl
    have := render_line (o := o) hk hcol hr hlt (env := { env with threadNumber := 0 }) h1 (by show 0 < 2 ^ 64; decide) h2 m
    rw [← e2, hti] at this
    exact this
  | name =>
    have hnum : e.threadNumber = env.threadNumber := by rw [he, hti]; unfold mkEvent; cases m.fmt <;> rfl
    rw [hnum] at h3
    have := render_line (o := o) hk hcol hr hlt h1 h3 h2 m
    rw [← he, hti] at this
    exact this
  | id =>
    have hnum : e.threadNumber = env.threadNumber := by rw [he, hti]; unfold mkEvent; cases m.fmt <;> rfl
    rw [hnum] at h3
    have := render_line (o := o) hk hcol hr hlt h1 h3 h2 m
    rw [← he, hti] at this
    exact this

theorem setup_leaf {i : Nat} {cf : Sink.Cfg} (hc : (y.specs i).cfg = some cf) :
    (setupOf E format fmt y.specs).leaf i = leafOf (E.world i) (E.opened i) cf := by
  show (match (y.specs i).cfg with | some c => leafOf (E.world i) (E.opened i) c | none => leafNowhere : LeafCfg) = _
  rw [hc]

theorem conf_roomy (h : Yaml.configure W F what c (Yaml.new debug ord b) = .ok r y) {i : Nat} {cf : Sink.Cfg} (hc : (y.specs i).cfg = some cf)
    (hk : Sink.Stream cf.kind) : Whole.Roomy cf := by
  obtain ⟨⟨h3, h4, h5, h6⟩, h7⟩ := (conf_sinks h).2 i cf hc
  unfold Whole.Roomy
  cases hkind : cf.kind with
  | syslog => rw [hkind] at hk; exact hk.elim
  | nowhere => trivial
  | _ => exact ⟨by omega, h6⟩

/-- **C107**, the text, at any moment.  What a console without colours, or a file that could be opened, has received (in all files it has written,
with what is still in the stream's buffer) consists of one line of the layout of C10 per event, and of each thread that is not in a call
these are events of the beginning of what the document says it owes, in order. -/
theorem C107_lines (ho : ∀ l, (ord l).Perm l) (h : Yaml.configure W F what c (Yaml.new debug ord b) = .ok r y)
    (hn : ∀ k lv, y.specs k ≠ .multi lv []) {G : Text → Text} (hG : Registered y G) (S : Setup) (hS : S = setupOf E format fmt y.specs) :
    ∀ done, Reach S (configured S y.sys done) → ∀ calls s, Logging S G (configured S y.sys done) calls s →
        ∀ i cf, (y.specs i).cfg = some cf → Sink.Stream cf.kind → (∀ b, cf.kind ≠ .console true b) → (cf.kind = .file → E.opened i = true) →
          (∀ t, ((E.world i).lt t).Ok) → (∀ x ∈ acceptedBy (s.leaf i), Timely x.2) →
          ∃ w : List (Tid × Event), (s.leaf i).gens.flatten ++ (s.leaf i).dev ++ (s.leaf i).sbuf = w.flatMap (fun x => Whole.lineOf (E.world i).lt cf.ti x.2) ∧
            w <+: acceptedBy (s.leaf i) ∧
            ∀ t, s.sys.pc t = .idle → ∃ first rest, owedBy S y G t i calls = first ++ rest ∧ Matches (EventOf (S.leaf i)) (ofThread t w) first := by
  obtain ⟨hw, h0, _⟩ := configured_reach S (conf_reach ho h)
  intro done hr calls s hl
  intro i cf hc hk hcol hop hlt htime
  have hinv := logging_inv hG h0 hw hr hl
  have hSound : S.Sound := hS ▸ (C107_configured ho h).2 hn
  have hleaf : S.leaf i = leafOf (E.world i) (E.opened i) cf := by rw [hS]; exact setup_leaf hc
  have hopen : (S.leaf i).opened = true := by
    rw [hleaf]
    show (match cf.kind with | .file => E.opened i | _ => true) = true
    cases hkind : cf.kind with
    | file => exact hop hkind
    | _ => rfl
  have hsys : (S.leaf i).conc.isSyslog = false := by
    rw [hleaf]
    show decide (kindOf cf.kind = .syslog) = false
    cases hkind : cf.kind with
    | syslog => rw [hkind] at hk; exact hk.elim
    | _ => rfl
  obtain ⟨w, h1, h2, h3⟩ := C89_file_contents S hSound s hinv.reach i hopen hsys
  refine ⟨w, ?_, h2, fun t hi => ?_⟩
  · rw [h1]
    refine flatMap_same fun x hx => ?_
    have hxa : x ∈ acceptedBy (s.leaf i) := h2.subset hx
    obtain ⟨m, hm⟩ := accepted_event hSound hinv.reach hxa
    rw [hleaf] at hm
    have hline := timely_line hk hcol (conf_roomy h hc hk) hlt hm (htime x hxa)
    rw [← hleaf] at hline
    exact hline
  · obtain ⟨first, rest, h4, h5⟩ := h3 t
    rw [addressed_owed hS hinv hi i] at h4
    exact ⟨first, rest, h4, h5⟩

/-- **C107**, the text, in the end.  When a file of the document that could be opened (and has a worker) has been destroyed and no thread is
inside a call, the files it wrote contain, in order, one line of the layout of C10 for each message the document says each thread owes it, and
nothing else. -/
theorem C107_file_complete (ho : ∀ l, (ord l).Perm l) (h : Yaml.configure W F what c (Yaml.new debug ord b) = .ok r y)
    (hn : ∀ k lv, y.specs k ≠ .multi lv []) {G : Text → Text} (hG : Registered y G) (S : Setup) (hS : S = setupOf E format fmt y.specs) :
    ∀ done, Reach S (configured S y.sys done) → ∀ calls s, Logging S G (configured S y.sys done) calls s →
        ∀ i path cf, y.specs i = .file path cf → cf.kind = .file → cf.latency ≠ 0 → E.opened i = true → (∀ t, ((E.world i).lt t).Ok) →
          (∀ e ∈ (s.leaf i).written, Timely e) → ∀ d, (s.leaf i).owner = some d → (s.leaf i).pc d = .dead →
          (∀ t, (s.sys.pc t = .idle ∧ Free s t) ∨ t = SinkConc.workerTid) →
          ∃ w : List (Tid × Event), (s.leaf i).gens.flatten ++ (s.leaf i).dev = w.flatMap (fun x => Whole.lineOf (E.world i).lt cf.ti x.2) ∧
            ∀ t, t ≠ SinkConc.workerTid → Matches (EventOf (S.leaf i)) (ofThread t w) (owedBy S y G t i calls) := by
  obtain ⟨hw, h0, _⟩ := configured_reach S (conf_reach ho h)
  intro done hr calls s hl
  intro i path cf hc hk hlat hop hlt htime d hd hdead hfree
  have hinv := logging_inv hG h0 hw hr hl
  have hSound : S.Sound := hS ▸ (C107_configured ho h).2 hn
  have hcfg : (y.specs i).cfg = some cf := by rw [hc]; rfl
  have hleaf : S.leaf i = leafOf (E.world i) (E.opened i) cf := by rw [hS]; exact setup_leaf hcfg
  have hopen : (S.leaf i).opened = true := by
    rw [hleaf]
    show (match cf.kind with | .file => E.opened i | _ => true) = true
    rw [hk]; exact hop
  have hfile : (S.leaf i).conc.isFile = true := by
    rw [hleaf]
    show decide (kindOf cf.kind = .file) = true
    rw [hk]; rfl
  have hl0 : (S.leaf i).conc.latency0 = false := by
    rw [hleaf]
    exact decide_eq_false hlat
  have hst : Sink.Stream cf.kind := by rw [hk]; trivial
  obtain ⟨w, h1, h2, h3⟩ := C89_file_complete S hSound s hinv.reach i hopen hfile hl0 d hd hdead (fun t => (hfree t).imp (·.2) id)
  refine ⟨w, ?_, fun t ht => ?_⟩
  · rw [h1]
    refine flatMap_same fun x hx => ?_
    have hxw : x.2 ∈ (s.leaf i).written := h2 ▸ List.mem_map_of_mem hx
    have hreach := leaf_reach hinv.reach i
    rw [hopen] at hreach
    have hpre := (SinkFull.C72_exactly_once_in_order _ (hSound.room i) _ hreach).1
    rw [← acceptedBy_map] at hpre
    obtain ⟨z, hz1, hz2⟩ := List.mem_map.1 (hpre.subset hxw)
    obtain ⟨m, hm⟩ := accepted_event hSound hinv.reach hz1
    rw [hz2] at hm
    rw [hleaf] at hm
    have hline := timely_line hst (fun b e => by rw [hk] at e; cases e) (conf_roomy h hcfg hst) hlt hm (htime x.2 hxw)
    rw [← hleaf] at hline
    exact hline
  · rw [← addressed_owed hS hinv ((hfree t).resolve_right ht).1 i]
    exact h3 t ht

/-! ## a concrete program

A document with the file "out" of level info and the group "a" of level debug that uses it.  Threads 1 and 2 get a logger of that group and log
at the same time, one message each that the file admits, one that it does not; then thread 3 destroys the file. -/

def fileDoc : Yaml.World := Yaml.demo [
  /- 16 -/ .map [(5, 17), (6, 18)],
  /- 17 -/ .seq [19],
  /- 18 -/ .seq [20],
  /- 19 -/ .map [(0, 21), (1, 22), (11, 23), (2, 24)],
  /- 20 -/ .map [(0, 25), (3, 21), (2, 26)],
  /- 21 -/ .scalar "out".toList, .scalar "file".toList, .scalar "/tmp/log".toList, .scalar "info".toList, .scalar "a".toList,
  /- 26 -/ .scalar "debug".toList]

def fileEnv : Whole.Env := ⟨fileDoc, fun _ => Sink.exampleWorld, fun _ => true⟩

/-- the outcome of `configure` as a pair -/
def pairOf (o : Yaml.Out Yaml.Result) : Option (Yaml.Result × Yaml.St) :=
  match o with
  | .ok r y => some (r, y)
  | _ => none

theorem pairOf_ok {o : Yaml.Out Yaml.Result} {x : Yaml.Result × Yaml.St} (h : pairOf o = some x) : o = .ok x.1 x.2 := by
  cases o <;> cases h
  rfl

def docPair : Option (Yaml.Result × Yaml.St) := pairOf (Yaml.configure fileDoc 20 [] (.yaml (.document 16)) (Yaml.new false id false))
theorem docPair_some : docPair.isSome = true := by decide +kernel
def docY : Yaml.St := (docPair.get docPair_some).2
def docR : Yaml.Result := (docPair.get docPair_some).1

theorem doc_conf : Yaml.configure fileDoc 20 [] (.yaml (.document 16)) (Yaml.new false id false) = .ok docR docY :=
  pairOf_ok (x := docPair.get docPair_some) (Option.some_get docPair_some).symm

def docFile : Sink.Cfg := ⟨.file, .info, .none, 2048, 1024, 2 ^ 22, 1000⟩

theorem doc_facts : docR.error = false ∧ docY.sys.nsinks = 2 ∧ docY.specs 0 = .nowhere ∧ docY.specs 1 = .file "/tmp/log".toList docFile ∧
    docY.sys.groups.find ['a'] = some 0 ∧ (docY.sys.grp 0).sink = some 1 ∧ (docY.sys.grp 0).level = .debug := by decide +kernel

theorem doc_noEmpty (k : Nat) (lv : Level) : docY.specs k ≠ .multi lv [] := by
  match k with
  | 0 => rw [doc_facts.2.2.1]; intro h; cases h
  | 1 => rw [doc_facts.2.2.2.1]; intro h; cases h
  | k + 2 => rw [(conf_sinks doc_conf).1.beyond (k + 2) (by rw [doc_facts.2.1]; omega)]; intro h; cases h

/-- every logger is one of the group "a" -/
def docG : Text → Text := fun _ => ['a']

theorem doc_registered : Registered docY docG := fun _ => ⟨(by decide : ['a'] ≠ System.star), 0, doc_facts.2.2.2.2.1⟩

def docS : Setup := setupOf fileEnv (fun r => r.text) (fun r => .ok r.text) docY.specs

inductive DocAct where
  | get (t : Tid) (n : Text)
  | log (t : Tid) (i : Nat) (r : System.Conc.Rec)
  | step (t : Tid)
  | enter (t : Tid)
  | leaf (t : Tid) (n : Nat)
  | destroy (t : Tid)

def clear (s : St) (t : Tid) : Bool := decide (t ≠ SinkConc.workerTid ∧ t < 4 ∧ s.todo t = [] ∧ quiet ((s.leaf 1).pc t))

/-- the logging system part of a step: what is logged, and the state -/
def docUse (s : System.Conc.St) : DocAct → Option (Tid × List LogCall × System.Conc.St)
  | .get t n =>
    if s.pc t = .idle then
      match System.step 20 s.sys (.getLogger n (docG n) none none) with
      | .ret v y => some (t, [], s.finish t y (.getLogger n (docG n) none none) (.ret v))
      | _ => none
    else none
  | .log t i r => if s.pc t = .idle ∧ s.sys.alive i = true then some (t, [⟨t, (s.sys.lgr i).name, r⟩], s.goto t (.log1 i r)) else none
  | .step t => if s.pc t ≠ .idle then some (t, [], System.Conc.step s t) else none
  | _ => none

def docCall : Req → SinkConc.Call
  | .push m => .push (mkEvent ⟨1700000000000000000, 1, []⟩ .none 1024 m)
  | .flush => .flush
  | .asyncFlush => .asyncFlush
  | .rotate => .rotate

def docAct (S : Setup) (x : List LogCall × St) : DocAct → Option (List LogCall × St)
  | .enter t =>
    match x.2.todo t with
    | [] => none
    | (i, q) :: rest =>
      if i = 1 ∧ t ≠ SinkConc.workerTid ∧ t < 4 ∧ (x.2.leaf 1).pc t = .idle ∧ (x.2.leaf 1).owner.isNone then
        some (x.1, { x.2 with todo := upd x.2.todo t rest, leaf := upd x.2.leaf 1 (SinkFull.setPc (x.2.leaf 1) t (SinkFull.startPC (docCall q))) })
      else none
  | .leaf t n =>
    if t < 4 then some (x.1, { x.2 with leaf := upd x.2.leaf 1 (SinkFull.runN (S.leaf 1).conc t n (x.2.leaf 1)) }) else none
  | .destroy t =>
    if clear x.2 t = true ∧ x.2.sys.pc t = .idle ∧ (x.2.leaf 1).owner.isNone ∧
        (∀ u : Nat, u < 4 → u = SinkConc.workerTid ∨ (x.2.leaf 1).pc u = .idle) ∧ (∀ u : Nat, u < 4 → x.2.todo u = []) then
      some (x.1, { x.2 with leaf := upd x.2.leaf 1 (SinkFull.setPc { x.2.leaf 1 with owner := some t } t .dStart) })
    else none
  | a =>
    match docUse x.2.sys a with
    | some (t, new, sys') => if clear x.2 t = true then some (x.1 ++ new, x.2.after S t sys') else none
    | none => none

/-- the same state after a longer history -/
def later (d : List System.Conc.Done) (s : System.Conc.St) : System.Conc.St := { s with done := d ++ s.done }
def withDone (d : List System.Conc.Done) (s : St) : St := { s with sys := later d s.sys }

theorem docUse_uses (d : List System.Conc.Done) {s : System.Conc.St} {a : DocAct} {t : Tid} {new : List LogCall} {s' : System.Conc.St}
    (h : docUse s a = some (t, new, s')) : Uses docG t (later d s) new (later d s') := by
  cases a with
  | get u n =>
    simp only [docUse] at h
    split at h
    · rename_i hi
      split at h
      · rename_i v y hs
        cases h
        have := Uses.getLogger (G := docG) (t := t) (later d s) n 20 v y hi hs
        have e : (later d s).finish t y (.getLogger n (docG n) none none) (.ret v) =
            later d (s.finish t y (.getLogger n (docG n) none none) (.ret v)) := by
          simp [later, System.Conc.St.finish, List.append_assoc]
        rwa [e] at this
      · cases h
    · cases h
  | log u i r =>
    simp only [docUse] at h
    split at h
    · rename_i hc
      cases h
      exact Uses.log (G := docG) (t := t) (later d s) i r hc.1 hc.2
    · cases h
  | step u =>
    simp only [docUse] at h
    split at h
    · rename_i hi
      cases h
      have := Uses.step (G := docG) (t := t) (later d s) hi
      have e : System.Conc.step (later d s) t = later d (System.Conc.step s t) := by
        unfold System.Conc.step
        rw [show (later d s).pc t = s.pc t from rfl]
        cases s.pc t <;> simp only [show (later d s).sys = s.sys from rfl] <;> (repeat' split) <;>
          simp [later, System.Conc.St.finish, System.Conc.St.goto, List.append_assoc]
      rwa [e] at this
    · cases h
  | _ => cases h

structure DocTail (s : St) : Prop where
  file : ∀ j, j ≠ 1 → ∀ t, t ≠ SinkConc.workerTid → (s.leaf j).pc t = .idle
  thread : ∀ t, 4 ≤ t → s.todo t = [] ∧ (s.leaf 1).pc t = .idle ∧ s.sys.pc t = .idle

theorem clear_free {s : St} (ht : DocTail s) {t : Tid} (h : clear s t = true) : t ≠ SinkConc.workerTid ∧ t < 4 ∧ Free s t := by
  obtain ⟨h1, h2, h3, h4⟩ := of_decide_eq_true h
  refine ⟨h1, h2, h3, fun i => ?_⟩
  by_cases hi : i = 1
  · rw [hi]; exact h4
  · exact .inl (ht.file i hi t h1)

theorem doc_leaf1 : docS.leaf 1 = leafOf (fileEnv.world 1) (fileEnv.opened 1) docFile := setup_leaf (by rw [doc_facts.2.2.2.1]; rfl)

theorem docCall_serves (q : Req) : Serves (docS.leaf 1) q (docCall q) := by
  rw [doc_leaf1]
  cases q with
  | push m => exact Serves.push (c := leafOf (fileEnv.world 1) (fileEnv.opened 1) docFile) m ⟨1700000000000000000, 1, []⟩
  | flush => exact .flush
  | asyncFlush => exact .asyncFlush
  | rotate => exact .rotate

theorem docRunN {S : Setup} {d : List System.Conc.Done} {s0 : St} {calls : List LogCall} {t : Tid} (n : Nat) {s : St}
    (h : Logging S docG s0 calls (withDone d s)) :
    Logging S docG s0 calls (withDone d { s with leaf := upd s.leaf 1 (SinkFull.runN (S.leaf 1).conc t n (s.leaf 1)) }) := by
  induction n generalizing s with
  | zero =>
    have : upd s.leaf 1 (s.leaf 1) = s.leaf := SinkFull.upd_self s.leaf 1
    show Logging S docG s0 calls (withDone d { s with leaf := upd s.leaf 1 (s.leaf 1) })
    rw [this]; exact h
  | succ n ih =>
    have h1 := Logging.other h (Exec.leaf (S := S) (withDone d s) 1 t SinkConc.calmCh) rfl rfl
    have := ih (s := { s with leaf := upd s.leaf 1 (SinkFull.step (S.leaf 1).conc (s.leaf 1) t SinkConc.calmCh) }) h1
    simp only [System.upd_same, System.upd_upd] at this
    exact this

theorem docAct_logging {S : Setup} (hS : ∀ q, Serves (S.leaf 1) q (docCall q)) {d : List System.Conc.Done} {s0 : St} {x x' : List LogCall × St} {a : DocAct} (ht : DocTail x.2) (h : docAct S x a = some x')
    (hl : Logging S docG s0 x.1 (withDone d x.2)) : Logging S docG s0 x'.1 (withDone d x'.2) ∧ DocTail x'.2 := by
  have huse : ∀ a, (match docUse x.2.sys a with
      | some (t, new, sys') => if clear x.2 t = true then some (x.1 ++ new, x.2.after S t sys') else none
      | none => none) = some x' → Logging S docG s0 x'.1 (withDone d x'.2) ∧ DocTail x'.2 := by
    intro a h
    split at h
    · rename_i t new sys' hu
      split at h
      · rename_i hc
        cases h
        obtain ⟨c1, c2, c3⟩ := clear_free ht hc
        have hU := docUse_uses d hu
        refine ⟨Logging.system hl c1 (s := withDone d x.2) c3 hU, ⟨ht.file, fun u hu' => ?_⟩⟩
        have hne : u ≠ t := fun e => Nat.not_le.2 c2 (e ▸ hu')
        refine ⟨?_, (ht.thread u hu').2.1, ?_⟩
        · show upd x.2.todo t _ u = _
          rw [System.upd_other _ _ hne]
          exact (ht.thread u hu').1
        · show (later d sys').pc u = _
          rw [(uses_moves hU).pc_other hne]
          exact (ht.thread u hu').2.2
      · cases h
    · cases h
  cases a with
  | get t n => exact huse _ h
  | log t i r => exact huse _ h
  | step t => exact huse _ h
  | enter t =>
    simp only [docAct] at h
    split at h
    · cases h
    · rename_i i q rest hd
      split at h
      · rename_i hc
        cases h
        obtain ⟨rfl, c1, c2, c3, c4⟩ := hc
        have hq : ∀ j, quiet ((x.2.leaf j).pc t) := by
          intro j
          by_cases hj : j = 1
          · rw [hj]; exact .inl c3
          · exact .inl (ht.file j hj t c1)
        refine ⟨Logging.other hl (Exec.enter (S := S) (withDone d x.2) t 1 q rest _ c1 hd hq c3 (by simpa [withDone] using c4) (hS q)) rfl rfl,
          ⟨fun j hj u hu => ?_, fun u hu => ?_⟩⟩
        · show (upd x.2.leaf 1 _ j).pc u = _
          rw [System.upd_other _ _ hj]
          exact ht.file j hj u hu
        · have hne : u ≠ t := fun e => Nat.not_le.2 c2 (e ▸ hu)
          refine ⟨?_, ?_, (ht.thread u hu).2.2⟩
          · show upd x.2.todo t _ u = _
            rw [System.upd_other _ _ hne]; exact (ht.thread u hu).1
          · show (upd x.2.leaf 1 _ 1).pc u = _
            rw [System.upd_same]
            show upd (x.2.leaf 1).pc t _ u = _
            rw [System.upd_other _ _ hne]; exact (ht.thread u hu).2.1
      · cases h
  | leaf t n =>
    simp only [docAct] at h
    split at h
    · rename_i hc
      cases h
      refine ⟨docRunN n hl, ⟨fun j hj u hu => ?_, fun u hu => ?_⟩⟩
      · show (upd x.2.leaf 1 _ j).pc u = _
        rw [System.upd_other _ _ hj]
        exact ht.file j hj u hu
      · have hne : u ≠ t := fun e => Nat.not_le.2 hc (e ▸ hu)
        refine ⟨(ht.thread u hu).1, ?_, (ht.thread u hu).2.2⟩
        show (upd x.2.leaf 1 (SinkFull.runN (S.leaf 1).conc t n (x.2.leaf 1)) 1).pc u = _
        rw [System.upd_same, runN_other hne]
        exact (ht.thread u hu).2.1
    · cases h
  | destroy t =>
    simp only [docAct] at h
    split at h
    · rename_i hc
      cases h
      obtain ⟨c1, c2, c3, c4, c5⟩ := hc
      obtain ⟨e1, e2, e3⟩ := clear_free ht c1
      refine ⟨Logging.other hl (Exec.destroy (S := S) (withDone d x.2) t 1 e1 e3 c2 (by simpa [withDone] using c3) ?_ ?_) rfl rfl,
        ⟨fun j hj u hu => ?_, fun u hu => ?_⟩⟩
      · intro u hu
        by_cases hlt : u < 4
        · exact (c4 u hlt).resolve_left hu
        · exact (ht.thread u (Nat.not_lt.1 hlt)).2.1
      · intro u q hq
        have hq : q ∈ x.2.todo u := hq
        by_cases hlt : u < 4
        · rw [c5 u hlt] at hq; cases hq
        · rw [(ht.thread u (Nat.not_lt.1 hlt)).1] at hq; cases hq
      · show (upd x.2.leaf 1 _ j).pc u = _
        rw [System.upd_other _ _ hj]
        exact ht.file j hj u hu
      · have hne : u ≠ t := fun e => Nat.not_le.2 e2 (e ▸ hu)
        refine ⟨(ht.thread u hu).1, ?_, (ht.thread u hu).2.2⟩
        show (upd x.2.leaf 1 _ 1).pc u = _
        rw [System.upd_same]
        show upd (x.2.leaf 1).pc t _ u = _
        rw [System.upd_other _ _ hne]; exact (ht.thread u hu).2.1
    · cases h

def docRun (S : Setup) : List DocAct → List LogCall × St → Option (List LogCall × St)
  | [], x => some x
  | a :: as, x => (docAct S x a).bind (docRun S as)

theorem docRun_logging {S : Setup} (hS : ∀ q, Serves (S.leaf 1) q (docCall q)) {d : List System.Conc.Done} {s0 : St} {as : List DocAct} {x x' : List LogCall × St} (ht : DocTail x.2) (h : docRun S as x = some x')
    (hl : Logging S docG s0 x.1 (withDone d x.2)) : Logging S docG s0 x'.1 (withDone d x'.2) ∧ DocTail x'.2 := by
  induction as generalizing x with
  | nil => cases h; exact ⟨hl, ht⟩
  | cons a as ih =>
    simp only [docRun] at h
    cases ha : docAct S x a with
    | none => rw [ha] at h; cases h
    | some x1 =>
      rw [ha] at h
      obtain ⟨h1, h2⟩ := docAct_logging hS ht ha hl
      exact ih h2 h h1

def docActs : List DocAct :=
  [.get 1 ['l'], .get 2 ['l'], .log 1 0 ⟨.info, "one".toList⟩, .log 2 0 ⟨.warn, "two".toList⟩, .step 1, .step 2, .step 2, .step 1,
   .enter 1, .enter 2, .leaf 1 4, .leaf 2 4, .leaf 1 40, .leaf 2 40, .step 1, .step 1, .enter 1, .leaf 1 40, .step 2, .step 2, .enter 2, .leaf 2 40,
   .log 1 0 ⟨.debug, "three".toList⟩, .step 1, .step 1, .step 1, .step 1, .enter 1, .leaf 1 40,
   .destroy 3, .leaf 3 3, .leaf 0 40, .leaf 3 40]

def docRan : Option (List LogCall × St) := docRun docS docActs ([], configured docS docY.sys [])
theorem docRan_some : docRan.isSome = true := by decide +kernel
def docEnd : List LogCall × St := docRan.get docRan_some

theorem docEnd_logging (d : List System.Conc.Done) : Logging docS docG (configured docS docY.sys d) docEnd.1 (withDone d docEnd.2) ∧ DocTail docEnd.2 := by
  have h : docRun docS docActs ([], configured docS docY.sys []) = some docEnd := (Option.some_get docRan_some).symm
  have hs : withDone d (configured docS docY.sys []) = configured docS docY.sys d := by simp [withDone, later, configured]
  refine docRun_logging docCall_serves (x := ([], configured docS docY.sys [])) (x' := docEnd) ⟨fun j _ t ht => ?_, fun t ht => ⟨rfl, ?_, rfl⟩⟩ h (hs ▸ .start)
  · show (SinkFull.init _ _).pc t = _
    simp [SinkFull.init, ht]
  · have hw : t ≠ SinkConc.workerTid := fun e => by rw [e] at ht; exact absurd ht (by decide)
    show (SinkFull.init _ _).pc t = _
    simp [SinkFull.init, hw]

theorem docEnd_facts : docEnd.1 = [⟨1, ['l'], ⟨.info, "one".toList⟩⟩, ⟨2, ['l'], ⟨.warn, "two".toList⟩⟩, ⟨1, ['l'], ⟨.debug, "three".toList⟩⟩] ∧
    (docEnd.2.leaf 1).owner = some 3 ∧ (docEnd.2.leaf 1).pc 3 = .dead ∧ (docEnd.2.leaf 1).gens = [] ∧ (docEnd.2.leaf 1).sbuf = [] ∧
    (docEnd.2.leaf 1).dev = "24.01.02 03:04:05.000000  Info      l  one\n24.01.02 03:04:05.000000  Warning   l  two\n".toList := by decide +kernel

instance (e : Event) : Decidable (Timely e) := (by unfold Timely; infer_instance)

def docTimely (e : Event) : Bool := decide (Timely e)

theorem docTimely_iff {e : Event} (h : docTimely e = true) : Timely e := of_decide_eq_true h

theorem docEnd_timely : (∀ e ∈ (docEnd.2.leaf 1).written, Timely e) ∧ ∀ x ∈ acceptedBy (docEnd.2.leaf 1), Timely x.2 := by
  have h1 : (docEnd.2.leaf 1).written.all docTimely = true := by decide +kernel
  have h2 : ((acceptedBy (docEnd.2.leaf 1)).all fun x => docTimely x.2) = true := by decide +kernel
  exact ⟨fun e he => docTimely_iff (List.all_eq_true.1 h1 e he), fun x hx => docTimely_iff (List.all_eq_true.1 h2 x hx)⟩

theorem docEnd_clear : (clear docEnd.2 1 = true ∧ clear docEnd.2 2 = true ∧ clear docEnd.2 3 = true) ∧
    docEnd.2.sys.pc 1 = .idle ∧ docEnd.2.sys.pc 2 = .idle ∧ docEnd.2.sys.pc 3 = .idle := by decide +kernel

theorem doc_lt (t : Int) : ((fileEnv.world 1).lt t).Ok := (by show (⟨24, 1, 2, 3, 4, 5⟩ : Render.Tm).Ok; unfold Render.Tm.Ok; decide)

/-- what the document says thread 1 owes the file: "one", not "three", which the file does not admit -/
theorem docEnd_owed : owedBy docS docY docG 1 1 docEnd.1 = [⟨['l'], .info, "one".toList, .ok "one".toList⟩] ∧
    owedBy docS docY docG 2 1 docEnd.1 = [⟨['l'], .warn, "two".toList, .ok "two".toList⟩] := by
  decide +kernel

attribute [irreducible] docEnd docY

theorem docEnd_free (t : Tid) : (docEnd.2.sys.pc t = .idle ∧ Free docEnd.2 t) ∨ t = SinkConc.workerTid := by
  have ht := (docEnd_logging []).2
  by_cases hw : t = SinkConc.workerTid
  · exact .inr hw
  refine .inl ?_
  by_cases h1 : t = 1
  · subst h1; exact ⟨docEnd_clear.2.1, (clear_free ht docEnd_clear.1.1).2.2⟩
  by_cases h2 : t = 2
  · subst h2; exact ⟨docEnd_clear.2.2.1, (clear_free ht docEnd_clear.1.2.1).2.2⟩
  by_cases h3 : t = 3
  · subst h3; exact ⟨docEnd_clear.2.2.2, (clear_free ht docEnd_clear.1.2.2).2.2⟩
  have h4 : 4 ≤ t := (by have key : ∀ n : Nat, n ≠ 0 → n ≠ 1 → n ≠ 2 → n ≠ 3 → 4 ≤ n := (by intro n; omega)
                         exact key t hw h1 h2 h3)
  refine ⟨(ht.thread t h4).2.2, (ht.thread t h4).1, fun i => .inl ?_⟩
  by_cases hi : i = 1
  · rw [hi]; exact (ht.thread t h4).2.1
  · exact ht.file i hi t hw

/-- all hypotheses of the theorems above hold at the end of this program, whose file is not empty -/
example : ∃ done, Reach docS (configured docS docY.sys done) ∧
    Matches (EventOf (docS.leaf 1)) (acceptedFrom 1 (docEnd.2.leaf 1)) [⟨['l'], .info, "one".toList, .ok "one".toList⟩] := by
  obtain ⟨done, hr⟩ := (C107_configured (E := fileEnv) (format := fun r => r.text) (fmt := fun r => .ok r.text) (fun _ => .refl _) doc_conf).1
  have h := C107_delivered (fun _ => .refl _) doc_conf doc_noEmpty doc_registered docS rfl done hr _ _ (docEnd_logging done).1 1
    docEnd_clear.2.1 ((docEnd_free 1).resolve_right (by decide)).2 1
  rw [docEnd_owed.1] at h
  exact ⟨done, hr, h⟩

example : ∃ w : List (Tid × Event), (docEnd.2.leaf 1).dev = w.flatMap (fun x => Whole.lineOf (fileEnv.world 1).lt .none x.2) ∧
    Matches (EventOf (docS.leaf 1)) (ofThread 2 w) [⟨['l'], .warn, "two".toList, .ok "two".toList⟩] := by
  obtain ⟨done, hr⟩ := (C107_configured (E := fileEnv) (format := fun r => r.text) (fmt := fun r => .ok r.text) (fun _ => .refl _) doc_conf).1
  obtain ⟨w, h1, h2⟩ := C107_file_complete (fun _ => .refl _) doc_conf doc_noEmpty doc_registered docS rfl done hr _ _ (docEnd_logging done).1 1
    _ docFile doc_facts.2.2.2.1 rfl (by decide) rfl doc_lt docEnd_timely.1 3 docEnd_facts.2.1 docEnd_facts.2.2.1 docEnd_free
  refine ⟨w, ?_, ?_⟩
  · have : ((withDone done docEnd.2).leaf 1).gens.flatten ++ ((withDone done docEnd.2).leaf 1).dev = (docEnd.2.leaf 1).dev := by
      show (docEnd.2.leaf 1).gens.flatten ++ _ = _
      rw [docEnd_facts.2.2.2.1]; rfl
    rw [← this]; exact h1
  · have := h2 2 (by decide)
    rw [docEnd_owed.2] at this
    exact this

example : ∃ w : List (Tid × Event), (docEnd.2.leaf 1).dev = w.flatMap (fun x => Whole.lineOf (fileEnv.world 1).lt .none x.2) := by
  obtain ⟨done, hr⟩ := (C107_configured (E := fileEnv) (format := fun r => r.text) (fmt := fun r => .ok r.text) (fun _ => .refl _) doc_conf).1
  obtain ⟨w, h1, _⟩ := C107_lines (fun _ => .refl _) doc_conf doc_noEmpty doc_registered docS rfl done hr _ _ (docEnd_logging done).1 1
    docFile (by rw [doc_facts.2.2.2.1]; rfl) trivial (fun b h => (by cases h)) (fun _ => rfl) doc_lt docEnd_timely.2
  refine ⟨w, ?_⟩
  have : ((withDone done docEnd.2).leaf 1).gens.flatten ++ ((withDone done docEnd.2).leaf 1).dev ++ ((withDone done docEnd.2).leaf 1).sbuf =
      (docEnd.2.leaf 1).dev := by
    show (docEnd.2.leaf 1).gens.flatten ++ _ ++ (docEnd.2.leaf 1).sbuf = _
    rw [docEnd_facts.2.2.2.1, docEnd_facts.2.2.2.2.1, List.append_nil]; rfl
  rw [← this]; exact h1

end Many
end Soralog
