import Verif.Proofs.LoneCall
import Verif.Props.Many
/-!
# C105: when a log call has returned, is its record in the operating system?

`LoneCall S t i r k s0 s` (Spec/LoneCall.lean): thread `t` called logger `i` in `s0`, the execution has gone on to `s`, and nobody else
touched sink `k` or changed the logger meanwhile; anything may have happened elsewhere.  `inTheSystem` (Spec/FlushRequest.lean) is what the operating
system has been given.
-/
namespace Soralog
namespace Many
open Spec
open SinkFull (accepted inTheSystem)
open System.Conc (Rec)

/-- **C105**, the true part.  A logger whose sink is a multisink (not the sink `k` itself), any nesting below it; a console or file sink `k`
with latency not zero, to which the message comes exactly once; nobody is inside `k` and everything it accepted has been handed to the stream.
If nobody else touches `k` during the call, then when it has returned the sink has accepted exactly the event of this message, has
handed it over, and the operating system has been given the records of all accepted events, this one included. -/
theorem C105_multisink_partial (S : Setup) (hS : S.Sound) (t : Tid) (i k j : Nat) (r : Rec) (s0 s : St) (hr : Reach S s0)
    (hk : (S.leaf k).conc.isSyslog = false) (hl : (S.leaf k).conc.latency0 = false) (hop : (S.leaf k).opened = true)
    (hj : (s0.sys.sys.lgr i).sink = some j) (hm : S.snk j ≠ .leaf k) (ha : Admits (s0.sys.sys.lgr i).level r.level)
    (hd : deliveries (S.snk j) S.level r.level k = 1)
    (hq : NobodyInside (s0.leaf k)) (hw : (s0.leaf k).written = accepted (s0.leaf k))
    (h : LoneCall S t i r k s0 s) (hb : ¬ Busy s t) :
    ∃ e, EventOf (S.leaf k) e (S.msg (s0.sys.sys.lgr i).name r) ∧ accepted (s.leaf k) = accepted (s0.leaf k) ++ [e] ∧
      (s.leaf k).written = accepted (s.leaf k) ∧ inTheSystem (s.leaf k) = (accepted (s.leaf k)).flatMap (S.leaf k).conc.render := by
  have hi := (lone_inv hS hr hk hl hop hj hm ha hd hq hw h).1
  have hlr := leaf_reach (h.reach hr).1 k
  rw [hop] at hlr
  obtain ⟨e, h1, h2, h3, h4⟩ := lone_end hS hk hi hb hlr
  exact ⟨e, h1, h2, by rw [h3, h2], by rw [h4, h2]⟩

/-! ### executions of the example program -/

/-- a step of thread 1 after it has called -/
def Act.goesOn : Act → Bool
  | .sys (.step t) => t == 1
  | .enter t => t == 1
  | .leaf _ t _ => t == 1
  | _ => false

theorem runN_lone {i k : Nat} {r : Rec} {s0 : St} (j n : Nat) : ∀ {s : St}, LoneCall exampleSetup 1 i r k s0 s →
    LoneCall exampleSetup 1 i r k s0 { s with leaf := upd s.leaf j (SinkFull.runN (exampleSetup.leaf j).conc 1 n (s.leaf j)) } := by
  induction n with
  | zero =>
    intro s h
    have : { s with leaf := upd s.leaf j (SinkFull.runN (exampleSetup.leaf j).conc 1 0 (s.leaf j)) } = s := by
      have : upd s.leaf j (s.leaf j) = s.leaf := SinkFull.upd_self s.leaf j
      cases s; simp only [SinkFull.runN] at *; rw [this]
    rw [this]; exact h
  | succ n ih =>
    intro s h
    have := ih (LoneCall.leaf h j SinkConc.calmCh (fun _ => rfl))
    simp only [System.upd_same, System.upd_upd] at this
    exact this

theorem act_lone {i k : Nat} {r : Rec} {s0 s s' : St} {a : Act} (ht : Tail s) (hg : a.goesOn = true) (h : act s a = some s')
    (hl : LoneCall exampleSetup 1 i r k s0 s) : LoneCall exampleSetup 1 i r k s0 s' := by
  cases a with
  | sys a =>
    cases a with
    | step t =>
      obtain rfl : t = 1 := by simpa [Act.goesOn] using hg
      simp only [act] at h
      split at h
      · rename_i hc
        rw [Option.map_eq_some_iff] at h
        obtain ⟨y, hy, rfl⟩ := h
        refine .system hl ?_ (freeNow_free ht hc.1 hc.2.2) y (act_moves hy)
        simp only [System.Conc.act] at hy
        split at hy
        · assumption
        · cases hy
      · cases h
    | _ => cases hg
  | enter t =>
    obtain rfl : t = 1 := by simpa [Act.goesOn] using hg
    simp only [act] at h
    split at h
    · cases h
    · rename_i i' q rest hd
      split at h
      · rename_i hc
        cases h
        have h2 := hc.2.2.1
        have hq : ∀ j, quiet ((s.leaf j).pc 1) := by
          intro j
          by_cases h0 : j = 0
          · rw [h0]; exact .inl hc.2.2.2.1
          · by_cases h1 : j = 1
            · rw [h1]; exact .inl hc.2.2.2.2.1
            · exact .inl (ht.file j (by omega) 1 hc.1)
        have hi : (s.leaf i').pc 1 = .idle := by
          by_cases h0 : i' = 0
          · rw [h0]; exact hc.2.2.2.1
          · have h1 : i' = 1 := by omega
            rw [h1]; exact hc.2.2.2.2.1
        exact .enter hl i' q rest _ hd hq hi (by simpa using hc.2.2.2.2.2) (callAt_serves i' q)
      · cases h
  | leaf i' t n =>
    obtain rfl : t = 1 := by simpa [Act.goesOn] using hg
    simp only [act] at h
    split at h
    · cases h; exact runN_lone i' n hl
    · cases h
  | destroy t i' => cases hg

theorem run_lone {i k : Nat} {r : Rec} {s0 : St} : ∀ {as : List Act} {s s' : St}, Tail s → (∀ a ∈ as, a.goesOn = true) → run as s = some s' →
    LoneCall exampleSetup 1 i r k s0 s → LoneCall exampleSetup 1 i r k s0 s'
  | [], s, s', _, _, h, hl => by cases h; exact hl
  | a :: as, s, s', ht, hg, h, hl => by
    simp only [run] at h
    cases ha : act s a with
    | none => rw [ha] at h; cases h
    | some s1 =>
      rw [ha] at h
      exact run_lone (act_execs ht ha).2 (fun x hx => hg x (List.mem_cons_of_mem _ hx)) h (act_lone ht (hg a List.mem_cons_self) ha hl)

/-- thread 1 calls logger `i` with `r` and goes on like this -/
def logs (i : Nat) (r : Rec) (as : List Act) (s0 : St) : Option St := run (.sys (.log 1 i r) :: as) s0

theorem logs_lone {i k : Nat} {r : Rec} {s0 s : St} {as : List Act} (ht : Tail s0) (hg : ∀ a ∈ as, a.goesOn = true) (h : logs i r as s0 = some s) :
    LoneCall exampleSetup 1 i r k s0 s ∧ Tail s := by
  refine ⟨?_, (run_execs ht h).2⟩
  simp only [logs, run] at h
  cases ha : act s0 (.sys (.log 1 i r)) with
  | none => rw [ha] at h; cases h
  | some s1 =>
    rw [ha] at h
    refine run_lone (act_execs ht ha).2 hg h ?_
    simp only [act, System.Conc.act] at ha
    split at ha
    · rename_i hc
      split at ha
      · rename_i hc2
        cases ha
        exact .start (by decide) (freeNow_free ht hc.1 hc.2.2) hc2.1 hc2.2
      · cases ha
    · cases ha

/-- loggers on a multisink over the file and the syslog sink, on the file itself, and on a multisink that lists the file twice -/
def threeLoggers : List Act :=
  (System.Conc.logActs ++ ([.call 1 (.makeSink ['u']), .mk 1 ⟨['p'], none, some ['u'], some .info⟩, .step 1, .step 1, .step 1,
    .call 1 (.getLogger ['y'] ['q'] none none), .call 1 (.getLogger ['z'] ['p'] none none)] : List System.Conc.Act)).map .sys

def threeLogged : Option St := run threeLoggers initial

theorem threeLogged_some : threeLogged.isSome = true := by decide +kernel

def waiting : St := threeLogged.get threeLogged_some

theorem waiting_run : Reach exampleSetup waiting ∧ Tail waiting := by
  have h : run threeLoggers initial = some waiting := (Option.some_get _).symm
  obtain ⟨h1, h2⟩ := run_execs initial_tail h
  exact ⟨h1.reach initial_reach, h2⟩

theorem waiting_facts : (waiting.sys.sys.lgr 0).sink = some 1 ∧ (waiting.sys.sys.lgr 1).sink = some 2 ∧ (waiting.sys.sys.lgr 2).sink = some 3 ∧
    (waiting.sys.sys.lgr 0).level = .debug ∧ (waiting.sys.sys.lgr 1).level = .info ∧ (waiting.sys.sys.lgr 2).level = .info ∧
    (waiting.leaf 0).written = accepted (waiting.leaf 0) ∧ accepted (waiting.leaf 0) = [] ∧
    (waiting.leaf 0).pc 0 = .wWait ∧ (waiting.leaf 0).pc 1 = .idle ∧ (waiting.leaf 0).pc 2 = .idle ∧ (waiting.leaf 0).pc 3 = .idle := by
  decide +kernel

theorem waiting_inside : NobodyInside (waiting.leaf 0) := by
  obtain ⟨_, _, _, _, _, _, _, _, h0, h1, h2, h3⟩ := waiting_facts
  intro u
  by_cases hu : 4 ≤ u
  · exact .inl (waiting_run.2.thread 0 u hu)
  · match u, hu with
    | 0, _ => exact .inr (.inl h0)
    | 1, _ => exact .inl h1
    | 2, _ => exact .inl h2
    | 3, _ => exact .inl h3
    | n + 4, hu => exact absurd (Nat.le_add_left 4 n) hu

/-- thread 1 makes its calls one after another -/
def through : List Act := [.sys (.step 1), .sys (.step 1), .enter 1, .leaf 0 1 40, .enter 1, .leaf 1 1 40, .sys (.step 1), .sys (.step 1),
  .enter 1, .leaf 0 1 2, .enter 1, .leaf 1 1 2, .enter 1, .leaf 0 1 40, .enter 1, .leaf 1 1 40]

theorem through_some : (logs 0 aWarn through waiting).isSome = true := by decide +kernel

def loggedThrough : St := (logs 0 aWarn through waiting).get through_some

theorem loggedThrough_facts : freeNow loggedThrough 1 = true ∧ loggedThrough.sys.pc 1 = .idle ∧ inTheSystem (loggedThrough.leaf 0) = ['h', 'e', 'l', '\n'] := by
  decide +kernel

/-- the hypotheses of `C105_multisink_partial` are met: the record is in the system -/
example : Reach exampleSetup waiting ∧ (exampleSetup.leaf 0).conc.isSyslog = false ∧ (exampleSetup.leaf 0).conc.latency0 = false ∧
    (exampleSetup.leaf 0).opened = true ∧ (waiting.sys.sys.lgr 0).sink = some 1 ∧ exampleSetup.snk 1 = .multi .info [.leaf 0, .leaf 1] ∧
    Admits (waiting.sys.sys.lgr 0).level aWarn.level ∧ deliveries (exampleSetup.snk 1) exampleSetup.level aWarn.level 0 = 1 ∧
    NobodyInside (waiting.leaf 0) ∧ (waiting.leaf 0).written = accepted (waiting.leaf 0) ∧
    LoneCall exampleSetup 1 0 aWarn 0 waiting loggedThrough ∧ ¬ Busy loggedThrough 1 ∧ inTheSystem (loggedThrough.leaf 0) = ['h', 'e', 'l', '\n'] := by
  obtain ⟨h1, h2⟩ := logs_lone (k := 0) (i := 0) (r := aWarn) (s := loggedThrough) (as := through) waiting_run.2 (by decide) (Option.some_get _).symm
  refine ⟨waiting_run.1, rfl, rfl, rfl, waiting_facts.1, rfl, ?_, by decide, waiting_inside, waiting_facts.2.2.2.2.2.2.1, h1, ?_, loggedThrough_facts.2.2⟩
  · rw [waiting_facts.2.2.2.1]; decide
  · exact fun h => h.elim (fun h => h loggedThrough_facts.2.1) (fun h => h (freeNow_free h2 (by decide) loggedThrough_facts.1))

/-! ### what is false -/

def straight : List Act := [.sys (.step 1), .sys (.step 1), .enter 1, .leaf 0 1 40, .sys (.step 1), .sys (.step 1), .enter 1, .leaf 0 1 40]

theorem straight_some : (logs 1 aWarn straight waiting).isSome = true := by decide +kernel

def loggedStraight : St := (logs 1 aWarn straight waiting).get straight_some

theorem loggedStraight_facts : freeNow loggedStraight 1 = true ∧ loggedStraight.sys.pc 1 = .idle ∧ inTheSystem (loggedStraight.leaf 0) = [] ∧
    (accepted (loggedStraight.leaf 0)).map (·.message) = [['h', 'e', 'l']] ∧ (loggedStraight.leaf 0).written = accepted (loggedStraight.leaf 0) := by
  decide +kernel

/-- **C105 is false of the code** for a logger whose sink is the file sink itself: the thread is alone, its log call (which calls
`push` and `flush()`) has returned, and nothing is in the operating system. -/
theorem C105_direct_refuted : ∃ (S : Setup) (t : Tid) (i k j : Nat) (r : Rec) (s0 s : St), S.Sound ∧ Reach S s0 ∧
    (S.leaf k).conc.isSyslog = false ∧ (S.leaf k).conc.latency0 = false ∧ (S.leaf k).opened = true ∧ (s0.sys.sys.lgr i).sink = some j ∧
    S.snk j = .leaf k ∧ Admits (s0.sys.sys.lgr i).level r.level ∧ deliveries (S.snk j) S.level r.level k = 1 ∧ NobodyInside (s0.leaf k) ∧
    (s0.leaf k).written = accepted (s0.leaf k) ∧ LoneCall S t i r k s0 s ∧ ¬ Busy s t ∧
    (s.leaf k).written = accepted (s.leaf k) ∧ (accepted (s.leaf k)).map (·.message) = [['h', 'e', 'l']] ∧ inTheSystem (s.leaf k) = [] := by
  obtain ⟨h1, h2⟩ := logs_lone (k := 0) (i := 1) (r := aWarn) (s := loggedStraight) (as := straight) waiting_run.2 (by decide) (Option.some_get _).symm
  obtain ⟨f1, f2, f3, f4, f5⟩ := loggedStraight_facts
  refine ⟨exampleSetup, 1, 1, 0, 2, aWarn, waiting, loggedStraight, example_sound, waiting_run.1, rfl, rfl, rfl, waiting_facts.2.1, rfl, ?_, by decide,
    waiting_inside, waiting_facts.2.2.2.2.2.2.1, h1, ?_, f5, f4, f3⟩
  · rw [waiting_facts.2.2.2.2.1]; decide
  · exact fun h => h.elim (fun h => h f2) (fun h => h (freeNow_free h2 (by decide) f1))

def twice : List Act := [.sys (.step 1), .sys (.step 1), .enter 1, .leaf 0 1 40, .enter 1, .leaf 0 1 40, .sys (.step 1), .sys (.step 1),
  .enter 1, .leaf 0 1 2, .enter 1, .leaf 0 1 2, .enter 1, .leaf 0 1 40, .enter 1, .leaf 0 1 40]

theorem twice_some : (logs 2 aWarn twice waiting).isSome = true := by decide +kernel

def loggedTwice : St := (logs 2 aWarn twice waiting).get twice_some

theorem loggedTwice_facts : freeNow loggedTwice 1 = true ∧ loggedTwice.sys.pc 1 = .idle ∧ inTheSystem (loggedTwice.leaf 0) = ['h', 'e', 'l', '\n'] ∧
    (accepted (loggedTwice.leaf 0)).map (·.message) = [['h', 'e', 'l'], ['h', 'e', 'l']] ∧ (loggedTwice.leaf 0).written = accepted (loggedTwice.leaf 0) := by
  decide +kernel

/-- **C105 is false of the code** for a multisink through which a message comes twice to the same file: both records have been handed to the
stream, only the first is in the operating system. -/
theorem C105_twice_refuted : ∃ (S : Setup) (t : Tid) (i k j : Nat) (r : Rec) (s0 s : St), S.Sound ∧ Reach S s0 ∧
    (S.leaf k).conc.isSyslog = false ∧ (S.leaf k).conc.latency0 = false ∧ (S.leaf k).opened = true ∧ (s0.sys.sys.lgr i).sink = some j ∧
    S.snk j ≠ .leaf k ∧ Admits (s0.sys.sys.lgr i).level r.level ∧ deliveries (S.snk j) S.level r.level k = 2 ∧ NobodyInside (s0.leaf k) ∧
    (s0.leaf k).written = accepted (s0.leaf k) ∧ LoneCall S t i r k s0 s ∧ ¬ Busy s t ∧
    (s.leaf k).written = accepted (s.leaf k) ∧ (accepted (s.leaf k)).length = 2 ∧ inTheSystem (s.leaf k) = ['h', 'e', 'l', '\n'] := by
  obtain ⟨h1, h2⟩ := logs_lone (k := 0) (i := 2) (r := aWarn) (s := loggedTwice) (as := twice) waiting_run.2 (by decide) (Option.some_get _).symm
  obtain ⟨f1, f2, f3, f4, f5⟩ := loggedTwice_facts
  refine ⟨exampleSetup, 1, 2, 0, 3, aWarn, waiting, loggedTwice, example_sound, waiting_run.1, rfl, rfl, rfl, waiting_facts.2.2.1, (by intro h; cases h), ?_,
    by decide, waiting_inside, waiting_facts.2.2.2.2.2.2.1, h1, ?_, f5, ?_, f3⟩
  · rw [waiting_facts.2.2.2.2.2.1]; decide
  · exact fun h => h.elim (fun h => h f2) (fun h => h (freeNow_free h2 (by decide) f1))
  · have := congrArg List.length f4
    rw [List.length_map] at this; exact this

end Many
end Soralog
