import Verif.Props.ManyDoc
import Verif.Props.ManyBusy
/-!
# C112 for what a document configured
-/
namespace Soralog
namespace Many
namespace Lock
open Spec
open SinkConc (workerTid)
open System.Conc (Args)

theorem fresh_after {S : Setup} {c c' : System.Conc.St} (ho : c'.out = c.out) (hw : c'.sys.warned = c.sys.warned) :
    (fresh S c).after S main c' = fresh S c' := by
  unfold Many.St.after fresh
  simp only [ho, hw, List.drop_length, List.flatMap_nil, List.map_nil, List.append_nil]
  congr 1
  funext x
  by_cases hx : x = main
  · subst hx; simp [upd]
  · simp [upd]

/-- a step that may have taken the mutex, and its release -/
theorem released {S : Setup} {p : Many.St} {t : Tid} {b : Bool} (h : Reach S ⟨p, none, if b = true then some t else none⟩) (hf : Free p t) : Reach S ⟨p, none, none⟩ := by
  cases b with
  | false => exact h
  | true => exact .next h (.go (.unlock _ t hf rfl))

/-- the program with the mutex of the logging system: the thread that configures takes and releases it in each call -/
theorem keeps_lock (S : Setup) : Keeps (fun c => Reach S ⟨fresh S c, none, none⟩) where
  step {c} h hi ho hw := by
    have := Reach.next h (.go (.step _ main (by decide) (fresh_free S c) (by intro e; cases e) hi (fun _ => ⟨rfl, .inl rfl⟩)))
    dsimp only at this
    rw [show (fresh S c).after S main (System.Conc.step (fresh S c).sys main) = fresh S (System.Conc.step c main) from fresh_after ho hw] at this
    exact released this (fresh_free S _)
  makeGroup {c} h a hi := by
    have := Reach.next h (.makeGroup _ main a (by decide) (fresh_free S c) (by intro e; cases e) hi)
    dsimp only at this
    rw [show (fresh S c).after S main ((fresh S c).sys.goto main a.start) = fresh S (c.goto main a.start) from fresh_after rfl rfl] at this
    exact this
  call {c} op fuel v y h hi hm hc hw := by
    have := Reach.next h (.call _ main op fuel (.ret v) y (by decide) (fresh_free S c) (by intro e; cases e) hi hm (fun _ => ⟨rfl, .inl rfl⟩) hc)
    dsimp only at this
    rw [show (fresh S c).after S main ((fresh S c).sys.finish main y op (.ret v)) = fresh S (c.finish main y op (.ret v)) from fresh_after rfl hw] at this
    exact released this (fresh_free S _)
  failed {c} op fuel y h hi hm hc hw := by
    have := Reach.next h (.call _ main op fuel .thrown y (by decide) (fresh_free S c) (by intro e; cases e) hi hm (fun _ => ⟨rfl, .inl rfl⟩) hc)
    dsimp only at this
    rw [show (fresh S c).after S main ((fresh S c).sys.finish main y op .thrown) = fresh S (c.finish main y op .thrown) from fresh_after rfl hw] at this
    exact released this (fresh_free S _)
  configuring {c} h hi hn := by
    have := Reach.next h (.configure _ main (by decide) (fresh_free S c) hi rfl rfl hn)
    dsimp only at this
    rw [show (fresh S c).after S main { (fresh S c).sys with sys := { (fresh S c).sys.sys with configured := true }, done := (fresh S c).sys.done ++ [.configuring] } =
      fresh S { c with sys := { c.sys with configured := true }, done := c.done ++ [.configuring] } from fresh_after rfl rfl] at this
    exact .next this (.go (.configured _ main (fresh_free S _) hi rfl (by intro e; cases e)))

theorem lock_init (S : Setup) (debug : Bool) (ord : List Nat → List Nat) (ho : ∀ l, (ord l).Perm l) : Reach S ⟨fresh S (System.Conc.init debug ord), none, none⟩ :=
  .init debug ord ho

variable {W : Yaml.World} {F : Nat} {what : Text} {c : Yaml.Configurator} {debug : Bool} {ord : List Nat → List Nat} {b : Bool}
  {r : Yaml.Result} {y : Yaml.St} {E : Whole.Env} {format : System.Conc.Rec → Text} {fmt : System.Conc.Rec → FmtResult}

theorem after_same {S : Setup} {s : Many.St} {t : Tid} {sys' : System.Conc.St} (hf : s.todo t = []) (ho : sys'.out = s.sys.out)
    (hw : sys'.sys.warned = s.sys.sys.warned) : s.after S t sys' = { s with sys := sys' } := by
  unfold Many.St.after
  simp only [ho, hw, List.drop_length, List.flatMap_nil, List.map_nil, List.append_nil]
  congr 1
  funext x
  by_cases hx : x = t
  · subst hx; simp [upd, hf]
  · simp [upd, hx]

/-- a program whose threads only log takes the mutex in `getLogger` only, and releases it -/
theorem logging_lock {S : Setup} {G : Text → Text} (hG : Registered y G) (hn : y.sys.nloggers = 0) (hw : System.WF y.sys) {done : List System.Conc.Done}
    (h0 : Reach S ⟨configured S y.sys done, none, none⟩) {calls : List LogCall} {s : Many.St} (h : Logging S G (configured S y.sys done) calls s) :
    Reach S ⟨s, none, none⟩ := by
  induction h with
  | start => exact h0
  | @system calls new s t sys' h ht hf hu ih =>
    have hinv := logging_inv hG hn hw (reach_prog h0) h
    cases hu with
    | getLogger n fuel v sys' hi hc =>
      have hwn : sys'.warned = s.sys.sys.warned := by
        obtain ⟨g, hg⟩ := (hG n).2
        rcases getLogger_configured (hG n).1 (g := g) (by rw [hinv.sys.groups]; exact hg) hc with e | e <;> rw [e] <;> rfl
      have := Reach.next ih (.call _ t _ fuel (.ret v) sys' ht hf (by intro e; cases e) hi rfl (fun _ => ⟨rfl, .inl rfl⟩) hc)
      refine released this ?_
      rw [show s.after S t (s.sys.finish t sys' (.getLogger n (G n) none none) (.ret v)) = { s with sys := s.sys.finish t sys' (.getLogger n (G n) none none) (.ret v) } from
        after_same hf.1 rfl hwn]
      exact hf
    | drop i fuel v sys' hi hc =>
      exact .next ih (.call _ t _ fuel (.ret v) sys' ht hf (by intro e; cases e) hi rfl (fun e => by cases e) hc)
    | log i r hi ha => exact .next ih (.log _ t i r ht hf (by intro e; cases e) hi ha)
    | flush i hi ha => exact .next ih (.flush _ t i ht hf (by intro e; cases e) hi ha)
    | step hi =>
      have hl : locksAt (s.sys.pc t) = false := by
        have := hinv.pcs t
        cases hp : s.sys.pc t <;> rw [hp] at this <;> first | rfl | exact this.elim
      have := Reach.next ih (.go (.step _ t ht hf (by intro e; cases e) hi (fun e => by rw [hl] at e; cases e)))
      dsimp only at this
      rw [hl] at this
      exact this
  | @other calls s s' h he hs hsaid ih =>
    cases he with
    | system t sys' ht hf hm =>
      have e : sys' = s.sys := hs
      subst e
      rw [after_same hf.1 rfl rfl]
      exact ih
    | direct t k d ht hf hi => exact .next ih (.direct _ t k d ht hf (by intro e; cases e) hi)
    | destroy t i ht hf hi ho hc hn => exact .next ih (.destroy _ t i ht hf hi ho hc hn)
    | enter t i q rest call ht hd hf hi ho hsv => exact .next ih (.go (.enter _ t i q rest call ht hd hf hi ho hsv))
    | leaf i t ch => exact .next ih (.go (.leaf _ i t ch))

/-- **C112** (and C107), the start: when `configure` has returned, the program is in a state of the model with the mutex, which nobody holds; and so it is whenever
its threads have only logged since. -/
theorem C112_configured (ho : ∀ l, (ord l).Perm l) (h : Yaml.configure W F what c (Yaml.new debug ord b) = .ok r y) (S : Setup) :
    ∃ done, Reach S ⟨configured S y.sys done, none, none⟩ ∧
      ∀ G, Registered y G → ∀ calls s, Logging S G (configured S y.sys done) calls s → Reach S ⟨s, none, none⟩ := by
  obtain ⟨hw, h0, _, done, h1⟩ := configured_by (keeps_lock S) (lock_init S) (conf_reach ho h)
  exact ⟨done, h1, fun G hG calls s hl => logging_lock hG h0 hw h1 hl⟩

/-- **C112**, for what a document configured.  At moment `n` of an endless fair execution the threads have only logged since `configure` has returned; afterwards
the program does what it likes.  A sink of the document with a worker that is opened and not destroyed: from some later moment on its
stream has been given the records of events `w ++ v`, where `w` has, for every thread that was in no call at moment `n`, exactly the events of the messages
the document says the thread owed to the sink by then, in the order of its calls; for a console without colours or a file these records are
lines of the layout of C10. -/
theorem C112_document (ho : ∀ l, (ord l).Perm l) (h : Yaml.configure W F what c (Yaml.new debug ord b) = .ok r y)
    (hn : ∀ k lv, y.specs k ≠ .multi lv []) {G : Text → Text} (hG : Registered y G) (S : Setup) (hS : S = setupOf E format fmt y.specs)
    (σ : Nat → Deed) (R : Nat → St) (hE : Endless S σ R) (hg : StartsAreCalls S σ R) (hl : NobodyStarves R) (hw : WaitsEnd R)
    (i : Nat) (cf : Sink.Cfg) (hc : (y.specs i).cfg = some cf) (hlat : cf.latency ≠ 0) (hop : cf.kind = .file → E.opened i = true)
    (n : Nat) (hk : ∀ m, n ≤ m → ((R m).prog.leaf i).owner = none)
    (done : List System.Conc.Done) (hr : Many.Reach S (configured S y.sys done)) (calls : List LogCall) (hL : Logging S G (configured S y.sys done) calls (R n).prog) :
    ∃ M, n ≤ M ∧ ∀ m, M ≤ m → ∃ w v : List (Tid × Event),
      (∀ t, (R n).prog.sys.pc t = .idle → Free (R n).prog t → Matches (EventOf (S.leaf i)) (ofThread t w) (owedBy S y G t i calls)) ∧
      (∀ t, ∃ first rest, addressed S t i (R m).prog.said = first ++ rest ∧ Matches (EventOf (S.leaf i)) (ofThread t (w ++ v)) first) ∧
      (Sink.Stream cf.kind → (∀ b, cf.kind ≠ .console true b) → (∀ t, ((E.world i).lt t).Ok) → (∀ x ∈ w ++ v, Timely x.2) →
        ((R m).prog.leaf i).gens.flatten ++ ((R m).prog.leaf i).dev ++ ((R m).prog.leaf i).sbuf = (w ++ v).flatMap (fun x => Whole.lineOf (E.world i).lt cf.ti x.2)) ∧
      (cf.kind = .syslog → ((R m).prog.leaf i).calls.map (·.1) = (w ++ v).filterMap (fun x => syslogPriority x.2.level)) := by
  obtain ⟨hwf, h0, _⟩ := configured_reach S (conf_reach ho h)
  have hSound : S.Sound := hS ▸ (C107_configured ho h).2 hn
  have hleaf : S.leaf i = leafOf (E.world i) (E.opened i) cf := by rw [hS]; exact setup_leaf hc
  have hopen : (S.leaf i).opened = true := by
    rw [hleaf]
    show (match cf.kind with | .file => E.opened i | _ => true) = true
    cases hkind : cf.kind with
    | file => exact hop hkind
    | _ => rfl
  have hl0 : (S.leaf i).conc.latency0 = false := by
    rw [hleaf]
    exact decide_eq_false hlat
  have hinv := logging_inv hG h0 hwf hr hL
  obtain ⟨M, h1, h2⟩ := C112_written_in_the_end S hSound σ R hE hg hl hw i hopen hl0 n hk
  refine ⟨M, h1, fun m hm => ?_⟩
  obtain ⟨w, v, h3, h4, h5, h6⟩ := h2 m hm
  refine ⟨w, v, fun t hi hf => ?_, h4, fun hst hcol hlt htime => ?_, fun hsy => ?_⟩
  · rw [← addressed_owed hS hinv hi i]; exact h3 t hf
  · have hsys : (S.leaf i).conc.isSyslog = false := by
      rw [hleaf]
      show decide (kindOf cf.kind = .syslog) = false
      cases hkind : cf.kind with
      | syslog => rw [hkind] at hst; exact hst.elim
      | _ => rfl
    rw [h5 hsys]
    refine flatMap_same fun x hx => ?_
    obtain ⟨first, rest, _, h7⟩ := h4 x.1
    obtain ⟨msg, hmsg⟩ := h7.left (List.mem_map.2 ⟨x, List.mem_filter.2 ⟨hx, by simp⟩, rfl⟩ : x.2 ∈ ofThread x.1 (w ++ v))
    rw [hleaf] at hmsg
    have hline := timely_line hst hcol (conf_roomy h hc hst) hlt hmsg (htime x hx)
    rw [← hleaf] at hline
    exact hline
  · refine h6 ?_
    rw [hleaf]
    show decide (kindOf cf.kind = .syslog) = true
    rw [hsy]; rfl

/-! ### C107, in the end -/

/-- nobody starts a call: the threads still have only logged, and the log calls are the same -/
theorem logging_go {S : Setup} {G : Text → Text} {s0 : Many.St} {calls : List LogCall} {s s' : St} (h : Logging S G s0 calls s.prog) (hg : Go S s s') :
    Logging S G s0 calls s'.prog := by
  cases hg with
  | step t ht hf hb hi hl =>
    have := Logging.system h ht hf (Uses.step (G := G) s.prog.sys hi)
    rw [List.append_nil] at this
    exact this
  | unlock t hf hb => exact h
  | configured t hf hi hc hb => exact h
  | enter t i q rest call ht hd hf hi ho hs => exact .other h (.enter s.prog t i q rest call ht hd hf hi ho hs) rfl rfl
  | leaf i t ch => exact .other h (.leaf s.prog i t ch) rfl rfl

theorem logging_stays {S : Setup} {G : Text → Text} {s0 : Many.St} {calls : List LogCall} {σ : Nat → Deed} {R : Nat → St} (hE : Endless S σ R) {N : Nat}
    (hN : NoMoreCalls σ N) (h : Logging S G s0 calls (R N).prog) (k : Nat) : Logging S G s0 calls (R (N + k)).prog := by
  induction k with
  | zero => exact h
  | succ k ih =>
    rcases (hE.next (N + k)).go (hN _ (by omega)) with e | e
    · show Logging S G s0 calls (R (N + k + 1)).prog
      rw [e]; exact ih
    · exact logging_go ih e

/-- **C107**, in the end.  A document has been read, no multisink of it is without underlying sinks; the threads have only logged when, at moment `N` of an endless fair
execution, they stop starting calls (some may be in the middle of one).  Then some time later and for ever no thread is inside a call, and every
opened sink of the document that has a worker has been given exactly the records of the messages the document says each thread owes it: all, in the order of
the thread's calls, each once; for a console without colours or a file these are lines of the layout of C10, and nothing else is there. -/
theorem C107_in_the_end (ho : ∀ l, (ord l).Perm l) (h : Yaml.configure W F what c (Yaml.new debug ord b) = .ok r y)
    (hn : ∀ k lv, y.specs k ≠ .multi lv []) {G : Text → Text} (hG : Registered y G) (S : Setup) (hS : S = setupOf E format fmt y.specs)
    (σ : Nat → Deed) (R : Nat → St) (hE : Endless S σ R) (hl : NobodyStarves R) (hw : WaitsEnd R) (hv : StoresSeen σ)
    (N : Nat) (hN : NoMoreCalls σ N) (hk : SinksKept S (R N).prog)
    (done : List System.Conc.Done) (hr : Many.Reach S (configured S y.sys done)) (calls : List LogCall) (hL : Logging S G (configured S y.sys done) calls (R N).prog)
    (i : Nat) (cf : Sink.Cfg) (hc : (y.specs i).cfg = some cf) (hlat : cf.latency ≠ 0) (hop : cf.kind = .file → E.opened i = true) :
    ∃ m, N ≤ m ∧ ∀ k, m ≤ k → (∀ t, t ≠ workerTid → AtRest (R k) t) ∧ ∃ w : List (Tid × Event),
      (∀ t, t ≠ workerTid → Matches (EventOf (S.leaf i)) (ofThread t w) (owedBy S y G t i calls)) ∧
      (Sink.Stream cf.kind → (∀ b, cf.kind ≠ .console true b) → (∀ t, ((E.world i).lt t).Ok) → (∀ x ∈ w, Timely x.2) →
        ((R k).prog.leaf i).gens.flatten ++ ((R k).prog.leaf i).dev ++ ((R k).prog.leaf i).sbuf = w.flatMap (fun x => Whole.lineOf (E.world i).lt cf.ti x.2)) ∧
      (cf.kind = .syslog → ((R k).prog.leaf i).calls.map (·.1) = w.filterMap (fun x => syslogPriority x.2.level)) := by
  obtain ⟨hwf, h0, _⟩ := configured_reach S (conf_reach ho h)
  have hSound : S.Sound := hS ▸ (C107_configured ho h).2 hn
  have hleaf : S.leaf i = leafOf (E.world i) (E.opened i) cf := by rw [hS]; exact setup_leaf hc
  have hopen : (S.leaf i).opened = true := by
    rw [hleaf]
    show (match cf.kind with | .file => E.opened i | _ => true) = true
    cases hkind : cf.kind with
    | file => exact hop hkind
    | _ => rfl
  have hl0 : (S.leaf i).conc.latency0 = false := by
    rw [hleaf]
    exact decide_eq_false hlat
  obtain ⟨m1, g1, h1⟩ := C102_comes_to_rest S hSound.room σ R hE hl hw hv N hN hk
  obtain ⟨m2, g2, h2⟩ := C102_log_complete S hSound σ R hE hl hw hv N hN hk i hopen hl0
  refine ⟨m1 + m2, by omega, fun k hk' => ?_⟩
  have hrest := (h1 k (by omega)).1
  obtain ⟨w, h3, h5, h6⟩ := h2 k (by omega)
  have hLk := logging_stays hE hN hL (k - N)
  rw [show N + (k - N) = k by omega] at hLk
  have hinv := logging_inv hG h0 hwf hr hLk
  refine ⟨hrest, w, fun t ht => ?_, fun hst hcol hlt htime => ?_, fun hsy => ?_⟩
  · rw [← addressed_owed hS hinv (hrest t ht).1 i]; exact h3 t
  · have hsys : (S.leaf i).conc.isSyslog = false := by
      rw [hleaf]
      show decide (kindOf cf.kind = .syslog) = false
      cases hkind : cf.kind with
      | syslog => rw [hkind] at hst; exact hst.elim
      | _ => rfl
    rw [h5 hsys]
    refine flatMap_same fun x hx => ?_
    obtain ⟨msg, hmsg⟩ := (h3 x.1).left (List.mem_map.2 ⟨x, List.mem_filter.2 ⟨hx, by simp⟩, rfl⟩ : x.2 ∈ ofThread x.1 w)
    rw [hleaf] at hmsg
    have hline := timely_line hst hcol (conf_roomy h hc hst) hlt hmsg (htime x hx)
    rw [← hleaf] at hline
    exact hline
  · refine h6 ?_
    rw [hleaf]
    show decide (kindOf cf.kind = .syslog) = true
    rw [hsy]; rfl

/-! ### the theorems apply

The document of C107 (Props/ManyDoc.lean): threads 1 and 2 have got a logger of the group "a" and have logged "one", "two" and "three" at the same time; nobody
destroys the file; then nobody calls anything, while the workers go on for ever. -/

def docMidRan : Option (List LogCall × Many.St) := docRun docS (docActs.take 29) ([], configured docS docY.sys [])
theorem docMidRan_some : docMidRan.isSome = true := by decide +kernel
def docMid : List LogCall × Many.St := docMidRan.get docMidRan_some

theorem docMid_logging (d : List System.Conc.Done) : Logging docS docG (configured docS docY.sys d) docMid.1 (withDone d docMid.2) ∧ DocTail docMid.2 := by
  have h : docRun docS (docActs.take 29) ([], configured docS docY.sys []) = some docMid := (Option.some_get docMidRan_some).symm
  have hs : withDone d (configured docS docY.sys []) = configured docS docY.sys d := by simp [withDone, later, configured]
  refine docRun_logging docCall_serves (x := ([], configured docS docY.sys [])) (x' := docMid) ⟨fun j _ t ht => ?_, fun t ht => ⟨rfl, ?_, rfl⟩⟩ h (hs ▸ .start)
  · show (SinkFull.init _ _).pc t = _
    simp [SinkFull.init, ht]
  · have hw : t ≠ SinkConc.workerTid := fun e => by rw [e] at ht; exact absurd ht (by decide)
    show (SinkFull.init _ _).pc t = _
    simp [SinkFull.init, hw]

theorem docMid_facts : docMid.1 = [⟨1, ['l'], ⟨.info, "one".toList⟩⟩, ⟨2, ['l'], ⟨.warn, "two".toList⟩⟩, ⟨1, ['l'], ⟨.debug, "three".toList⟩⟩] ∧
    (docMid.2.leaf 1).owner.isNone = true ∧ (docMid.2.leaf 0).owner.isNone = true ∧ (clear docMid.2 1 = true ∧ clear docMid.2 2 = true ∧ clear docMid.2 3 = true) ∧
    docMid.2.sys.pc 1 = .idle ∧ docMid.2.sys.pc 2 = .idle ∧ docMid.2.sys.pc 3 = .idle := by decide +kernel

theorem docMid_owed : owedBy docS docY docG 1 1 docMid.1 = [⟨['l'], .info, "one".toList, .ok "one".toList⟩] := by decide +kernel

attribute [irreducible] docMid

theorem docMid_free (t : Tid) (hw : t ≠ workerTid) : docMid.2.sys.pc t = .idle ∧ Free docMid.2 t := by
  have ht := (docMid_logging []).2
  by_cases h1 : t = 1
  · subst h1; exact ⟨docMid_facts.2.2.2.2.1, (clear_free ht docMid_facts.2.2.2.1.1).2.2⟩
  by_cases h2 : t = 2
  · subst h2; exact ⟨docMid_facts.2.2.2.2.2.1, (clear_free ht docMid_facts.2.2.2.1.2.1).2.2⟩
  by_cases h3 : t = 3
  · subst h3; exact ⟨docMid_facts.2.2.2.2.2.2, (clear_free ht docMid_facts.2.2.2.1.2.2).2.2⟩
  have h4 : 4 ≤ t := (by have key : ∀ n : Nat, n ≠ 0 → n ≠ 1 → n ≠ 2 → n ≠ 3 → 4 ≤ n := (by intro n; omega)
                         exact key t hw h1 h2 h3)
  refine ⟨(ht.thread t h4).2.2, (ht.thread t h4).1, fun i => .inl ?_⟩
  by_cases hi : i = 1
  · rw [hi]; exact (ht.thread t h4).2.1
  · exact ht.file i hi t hw

theorem docAct_away {S : Setup} {x x' : List LogCall × Many.St} {a : DocAct} (h : docAct S x a = some x') {j : Nat} (hj : j ≠ 1) : x'.2.leaf j = x.2.leaf j := by
  cases a <;> simp only [docAct] at h <;> (repeat' split at h) <;> cases h <;> first | rfl | exact System.upd_other _ _ hj

theorem docRun_away {S : Setup} {as : List DocAct} {x x' : List LogCall × Many.St} (h : docRun S as x = some x') {j : Nat} (hj : j ≠ 1) : x'.2.leaf j = x.2.leaf j := by
  induction as generalizing x with
  | nil => cases h; rfl
  | cons a as ih =>
    simp only [docRun] at h
    cases ha : docAct S x a with
    | none => rw [ha] at h; cases h
    | some x1 => rw [ha] at h; exact (ih h).trans (docAct_away ha hj)

theorem docMid_run : docRun docS (docActs.take 29) ([], configured docS docY.sys []) = some docMid := by
  unfold docMid; exact (Option.some_get docMidRan_some).symm

theorem docMid_owner (j : Nat) : (docMid.2.leaf j).owner = none := by
  by_cases hj : j = 1
  · rw [hj]; exact Option.isNone_iff_eq_none.1 docMid_facts.2.1
  · rw [docRun_away docMid_run hj]; rfl

/-- in this program the file has in the end, and for ever, exactly one line of thread 1 from what it logged before moment 0 -/
example : ∃ done, let s : St := ⟨withDone done docMid.2, none, none⟩
    Reach docS s ∧ Endless docS idleDeed (idling docS s) ∧ ∃ M, ∀ m, M ≤ m → ∃ w v : List (Tid × Event),
      Matches (EventOf (docS.leaf 1)) (ofThread 1 w) [⟨['l'], .info, "one".toList, .ok "one".toList⟩] ∧
      ((∀ x ∈ w ++ v, Timely x.2) → ((idling docS s m).prog.leaf 1).gens.flatten ++ ((idling docS s m).prog.leaf 1).dev ++ ((idling docS s m).prog.leaf 1).sbuf =
        (w ++ v).flatMap (fun x => Whole.lineOf (fileEnv.world 1).lt .none x.2)) := by
  obtain ⟨done, hr, hall⟩ := C112_configured (fun _ => .refl _) doc_conf docS
  have h := hall docG doc_registered _ _ (docMid_logging done).1
  have hrest : ∀ t, t ≠ workerTid → AtRest ⟨withDone done docMid.2, none, none⟩ t := fun t ht =>
    ⟨(docMid_free t ht).1, (docMid_free t ht).2, (fun e => by cases e), (fun e => by cases e)⟩
  have hSound : docS.Sound := (C107_configured (fun _ => .refl _) doc_conf).2 doc_noEmpty
  have hkept : SinksKept docS (withDone done docMid.2) := fun _ i _ => docMid_owner i
  have hg := idling_good hSound.room h hkept hrest
  have hlast : Last docS idleDeed (idling docS ⟨withDone done docMid.2, none, none⟩) := ⟨hg.run, (fun n e => by cases e), hkept⟩
  obtain ⟨M, _, hM⟩ := C112_document (fun _ => .refl _) doc_conf doc_noEmpty doc_registered docS rfl idleDeed (idling docS ⟨withDone done docMid.2, none, none⟩) hg.run
    (fun n e => by cases e) hg.lock hg.waits 1 docFile (by rw [doc_facts.2.2.2.1]; rfl) (by decide) (fun _ => rfl) 0
    (fun m _ => (hlast.owner_stays 1 m).trans (docMid_owner 1)) done (reach_prog hr) docMid.1 (docMid_logging done).1
  refine ⟨done, h, hg.run, M, fun m hm => ?_⟩
  obtain ⟨w, v, h1, _, h2, _⟩ := hM m hm
  have h3 := h1 1 (docMid_free 1 (by decide)).1 (docMid_free 1 (by decide)).2
  rw [docMid_owed] at h3
  exact ⟨w, v, h3, h2 trivial (fun b e => by cases e) doc_lt⟩

/-! for `C107_in_the_end` the program stops in the middle: thread 1 has logged "one" and has not yet entered the sink, thread 2 is inside `push` of "two" -/

def docCutRan : Option (List LogCall × Many.St) := docRun docS [.get 1 ['l'], .get 2 ['l'], .log 1 0 ⟨.info, "one".toList⟩, .log 2 0 ⟨.warn, "two".toList⟩, .step 2, .step 2, .enter 2, .leaf 2 3]
  ([], configured docS docY.sys [])
theorem docCutRan_some : docCutRan.isSome = true := by decide +kernel
def docCut : List LogCall × Many.St := docCutRan.get docCutRan_some

theorem docCut_run : docRun docS [.get 1 ['l'], .get 2 ['l'], .log 1 0 ⟨.info, "one".toList⟩, .log 2 0 ⟨.warn, "two".toList⟩, .step 2, .step 2, .enter 2, .leaf 2 3]
    ([], configured docS docY.sys []) = some docCut := by
  unfold docCut; exact (Option.some_get docCutRan_some).symm

theorem docCut_logging (d : List System.Conc.Done) : Logging docS docG (configured docS docY.sys d) docCut.1 (withDone d docCut.2) := by
  have hs : withDone d (configured docS docY.sys []) = configured docS docY.sys d := by simp [withDone, later, configured]
  refine (docRun_logging docCall_serves (x := ([], configured docS docY.sys [])) (x' := docCut) ⟨fun j _ t ht => ?_, fun t ht => ⟨rfl, ?_, rfl⟩⟩ docCut_run (hs ▸ .start)).1
  · show (SinkFull.init _ _).pc t = _
    simp [SinkFull.init, ht]
  · have hw : t ≠ SinkConc.workerTid := fun e => by rw [e] at ht; exact absurd ht (by decide)
    show (SinkFull.init _ _).pc t = _
    simp [SinkFull.init, hw]

theorem docCut_facts : (docCut.2.leaf 1).owner.isNone = true ∧ ¬ quiet ((docCut.2.leaf 1).pc 2) ∧ docCut.2.sys.pc 1 ≠ .idle ∧
    SinkFull.accepted (docCut.2.leaf 1) = [] := by decide +kernel

theorem docCut_owed : owedBy docS docY docG 1 1 docCut.1 = [⟨['l'], .info, "one".toList, .ok "one".toList⟩] ∧
    owedBy docS docY docG 2 1 docCut.1 = [⟨['l'], .warn, "two".toList, .ok "two".toList⟩] := by decide +kernel

attribute [irreducible] docCut

theorem docCut_owner (j : Nat) : (docCut.2.leaf j).owner = none := by
  by_cases hj : j = 1
  · rw [hj]; exact Option.isNone_iff_eq_none.1 docCut_facts.1
  · rw [docRun_away docCut_run hj]; rfl

/-- nothing of it had been accepted, and in the end both stand in the file -/
example : SinkFull.accepted (docCut.2.leaf 1) = [] ∧ ∃ (σ : Nat → Deed) (R : Nat → St), (R 0).prog.leaf = docCut.2.leaf ∧ Endless docS σ R ∧
    ∃ m, ∀ k, m ≤ k → ∃ w : List (Tid × Event), Matches (EventOf (docS.leaf 1)) (ofThread 1 w) [⟨['l'], .info, "one".toList, .ok "one".toList⟩] ∧
      Matches (EventOf (docS.leaf 1)) (ofThread 2 w) [⟨['l'], .warn, "two".toList, .ok "two".toList⟩] ∧
      ((∀ x ∈ w, Timely x.2) → ((R k).prog.leaf 1).gens.flatten ++ ((R k).prog.leaf 1).dev ++ ((R k).prog.leaf 1).sbuf =
        w.flatMap (fun x => Whole.lineOf (fileEnv.world 1).lt .none x.2)) := by
  obtain ⟨done, hr, hall⟩ := C112_configured (fun _ => .refl _) doc_conf docS
  have h := hall docG doc_registered _ _ (docCut_logging done)
  have hSound : docS.Sound := (C107_configured (fun _ => .refl _) doc_conf).2 doc_noEmpty
  have hkept : SinksKept docS (withDone done docCut.2) := fun _ i _ => docCut_owner i
  obtain ⟨σ, R, e0, hE, hl, hw, hv, hN⟩ := C102_can_go_on docS hSound.room _ h hkept
  obtain ⟨m, _, hm⟩ := C107_in_the_end (fun _ => .refl _) doc_conf doc_noEmpty doc_registered docS rfl σ R hE hl hw hv 0 hN (e0 ▸ hkept) done (reach_prog hr) docCut.1
    (e0 ▸ docCut_logging done) 1 docFile (by rw [doc_facts.2.2.2.1]; rfl) (by decide) (fun _ => rfl)
  refine ⟨docCut_facts.2.2.2, σ, R, by rw [e0]; rfl, hE, m, fun k hk => ?_⟩
  obtain ⟨_, w, h1, h2, _⟩ := hm k hk
  have a1 := h1 1 (by decide)
  have a2 := h1 2 (by decide)
  rw [docCut_owed.1] at a1
  rw [docCut_owed.2] at a2
  exact ⟨w, a1, a2, h2 trivial (fun b e => by cases e) doc_lt⟩

end Lock
end Many
end Soralog
