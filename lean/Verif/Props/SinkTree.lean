import Verif.Props.Sink
/-!
# C15, C16, C21, C30, C31: multisinks, loggers, macros
-/
namespace Soralog
namespace Sink
open Spec

/-- A heap of sinks each of which is in a reachable state. -/
def AllReachable (h : Heap) : Prop := ∀ i, ∃ cfg w o, cfg.Valid ∧ Reachable cfg w o (h.leaf i)

theorem AllReachable.ok {h : Heap} (hr : AllReachable h) : h.Ok := by
  constructor
  · intro i
    obtain ⟨cfg, w, o, hv, hi⟩ := hr i
    rw [(reachable_ok hv hi).2.1]; exact hv
  · intro i
    obtain ⟨cfg, w, o, hv, hi⟩ := hr i
    exact ⟨o, (reachable_ok hv hi).1⟩

/-! ## C30 -/

/-- execute calls in order, stopping at one that does not return -/
def seqPush (fuel : Nat) (m : Msg) : List Nat → Heap → Option Heap
  | [], h => some h
  | i :: is, h => (Snk.push fuel m (.leaf i) h).bind (seqPush fuel m is)

theorem seqPush_eq (n : Nat) (m : Msg) (is : List Nat) (h : Heap) (hh : h.Ok) :
    seqPush (n + 2) m is h = some (applyAll (pushCalls m is) h) := by
  induction is generalizing h with
  | nil => rfl
  | cons i is ih =>
    obtain ⟨o, ho⟩ := hh.ok i
    rw [seqPush, Snk.push, pushLeaf_eq n m (hh.valid i) ho]
    have := applyAll_ok _ (pushCalls_good m [i]) hh
    exact ih _ this

/-- **C30**, push: a push on any nesting of multisinks (none with an empty list) is exactly the sequence of pushes
of the same message on the sinks reached by the paths whose multisinks all admit it, in order; each of them then
applies its own filter (C13). -/
theorem C30_push_forwards (s : Snk) (hf : Full s) (h : Heap) (hh : AllReachable h) (m : Msg) (n : Nat) :
    Snk.push (n + 2) m s h = seqPush (n + 2) m (route s m.level) h := by
  rw [push_eq n m s h hf hh.ok, seqPush_eq n m _ h hh.ok]

/-- **C30**, rotate: reaches every sink below, once per path, in order, at every nesting depth. -/
theorem C30_rotate_reaches_all (s : Snk) (h : Heap) :
    s.rotate h = (leaves s).foldl (fun h i => Snk.rotate (.leaf i) h) h := by
  rw [rotate_eq]
  generalize leaves s = is
  induction is generalizing h with
  | nil => rfl
  | cons i is ih => exact ih _

mutual
/-- (sink, `true` = flush / `false` = async_flush) -/
def flushTrace : Snk → List (Nat × Bool)
  | .leaf i => [(i, true)]
  | .multi _ subs => asyncTrace subs ++ flushTraceAll subs
def asyncTrace : List Snk → List (Nat × Bool)
  | [] => []
  | .leaf i :: ss => (i, false) :: asyncTrace ss
  | .multi _ _ :: ss => asyncTrace ss
def flushTraceAll : List Snk → List (Nat × Bool)
  | [] => []
  | s :: ss => flushTrace s ++ flushTraceAll ss
end

def toCall (c : Nat × Bool) : Nat × (Leaf → Leaf) := (c.1, if c.2 then Leaf.flush else Leaf.asyncFlush)

theorem asyncTrace_eq (ss : List Snk) : asyncCalls ss = (asyncTrace ss).map toCall ∧
    (asyncTrace ss).filterMap (fun c => if c.2 then some c.1 else none) = [] := by
  induction ss with
  | nil => simp [asyncCalls, asyncTrace]
  | cons s ss ih => cases s <;> simp [asyncCalls, asyncTrace, ih, toCall]

mutual
theorem flushTrace_eq : (s : Snk) → flushCalls s = (flushTrace s).map toCall ∧
    (flushTrace s).filterMap (fun c => if c.2 then some c.1 else none) = leaves s
  | .leaf i => by simp [flushCalls, flushTrace, toCall, leaves]
  | .multi lv subs => by
    have h1 := asyncTrace_eq subs
    have h2 := flushTraceAll_eq subs
    rw [flushCalls, flushTrace, leaves, List.map_append, List.filterMap_append, h1.1, h1.2, h2.1, h2.2]
    exact ⟨rfl, rfl⟩
theorem flushTraceAll_eq : (ss : List Snk) → flushCallsAll ss = (flushTraceAll ss).map toCall ∧
    (flushTraceAll ss).filterMap (fun c => if c.2 then some c.1 else none) = leavesOfAll ss
  | [] => by simp [flushCallsAll, flushTraceAll, leavesOfAll]
  | s :: ss => by
    have h1 := flushTrace_eq s
    have h2 := flushTraceAll_eq ss
    rw [flushCallsAll, flushTraceAll, leavesOfAll, List.map_append, List.filterMap_append, h1.1, h1.2, h2.1, h2.2]
    exact ⟨rfl, rfl⟩
end

/-- **C30**, flush: equals a sequence of `flush` and `async_flush` calls on the sinks below, and the `flush` calls
among them reach every sink below, once per path, in order, at every nesting depth. -/
theorem C30_flush_reaches_all (s : Snk) (h : Heap) : ∃ calls : List (Nat × Bool),
    s.flush h = calls.foldl
      (fun h c => if c.2 then Snk.flush (.leaf c.1) h else Snk.asyncFlush (.leaf c.1) h) h ∧
    calls.filterMap (fun c => if c.2 then some c.1 else none) = leaves s := by
  refine ⟨flushTrace s, ?_, (flushTrace_eq s).2⟩
  rw [flush_eq, (flushTrace_eq s).1]
  generalize flushTrace s = cs
  induction cs generalizing h with
  | nil => rfl
  | cons c cs ih =>
    rw [List.map_cons, applyAll_cons, ih, List.foldl_cons]
    congr 1
    obtain ⟨i, b⟩ := c
    cases b
    · rfl
    · simp only [if_true]; rw [Snk.flush]; rfl

/-- `leaves` really contains everything below: nested example, with one sink on two paths -/
example : leaves (.multi .trace [.leaf 1, .multi .info [.leaf 2, .leaf 1]]) = [1, 2, 1] ∧
    route (.multi .trace [.leaf 1, .multi .info [.leaf 2, .leaf 1]]) .debug = [1] ∧
    route (.multi .trace [.leaf 1, .multi .info [.leaf 2, .leaf 1]]) .warn = [1, 2, 1] := by decide

/-! ## C31 -/

/-- **C31**, the true part: on a multisink with an empty list, flushing and rotating do nothing, and a push that
its level rejects does nothing.  Missing: a push its level admits (`C31_refuted`). -/
theorem C31_empty_multisink_partial (lv : Level) (h : Heap) (m : Msg) (fuel : Nat) :
    (Snk.multi lv []).flush h = h ∧ (Snk.multi lv []).rotate h = h ∧ (Snk.multi lv []).asyncFlush h = h ∧
    (¬ Admits lv m.level → Snk.push fuel m (.multi lv []) h = some h) := by
  refine ⟨?_, ?_, rfl, C13_multisink_rejects lv [] h m fuel⟩
  · rw [flush_eq]; rfl
  · rw [rotate_eq]; rfl

/-- The full C31 is false: every admissible push on a multisink with an empty list uses the queue of capacity 0,
which is undefined behaviour. -/
theorem C31_refuted (lv : Level) (h : Heap) (m : Msg) (fuel : Nat) (ha : Admits lv m.level) :
    ∃ h', Snk.push fuel m (.multi lv []) h = some h' ∧ h'.ub = true := by
  rw [Snk.push, (rejects_iff _ _).2 ha]
  exact ⟨_, rfl, rfl⟩

example : Admits .info .warn := by decide

/-! ## C15 -/

theorem log_eq (n : Nat) (g : Logger) (hf : Full g.sink) (h : Heap) (hh : h.Ok) (v : Level) (format : Text)
    (fmt : FmtResult) :
    g.log (n + 2) v format fmt h = some (if Admits g.level v then
      applyAll (flushCalls g.sink) (applyAll (pushCalls ⟨g.name, v, format, fmt⟩ (route g.sink v)) h) else h) := by
  unfold Logger.log
  by_cases hl : v ≤ g.level
  · rw [if_pos hl]
    by_cases hr : v ≠ Level.off ∧ v ≠ Level.ignore
    · have ha : Admits g.level v := ⟨hr, hl⟩
      rw [if_pos hr, push_eq n _ g.sink h hf hh, if_pos ha]
      have hcrit : Level.critical ≤ g.level := by
        have h2 := ha.2
        cases v <;> first | exact absurd rfl hr.1 | exact absurd rfl hr.2 | exact Nat.le_trans (by decide) h2
      simp only [Option.map_some, if_pos hcrit, flush_eq]
    · rw [if_neg hr, if_neg (fun ha => hr ha.1)]
  · rw [if_neg hl, if_neg (fun ha => hl ha.2)]

/-- **C15**.  A log call of level `v` on a logger whose sink is any nesting of multisinks (none empty) over sinks in
any reachable states returns, and every sink `i` has then accepted, in addition to what it had accepted before,
exactly one event of this message per path from the logger's sink to `i` on which all filters -- the logger's level,
every multisink's level, the level of `i` itself -- admit `v`.  If the logger's level does not admit `v` nothing at
all happens. -/
theorem C15_delivered_iff_admitted (g : Logger) (hf : Full g.sink) (h : Heap) (hh : AllReachable h) (v : Level)
    (format : Text) (fmt : FmtResult) (n : Nat) :
    ∃ h', g.log (n + 2) v format fmt h = some h' ∧
      (∀ i, (h'.leaf i).accepted = (h.leaf i).accepted ++
        eventsOf (h.leaf i).w.env (h.leaf i).cfg.ti (h.leaf i).cfg.maxLen (h.leaf i).accepted.length
          (List.replicate
            (if Admits g.level v then deliveries g.sink (fun j => (h.leaf j).cfg.level) v i else 0)
            ⟨g.name, v, format, fmt⟩)) ∧
      h'.ub = h.ub ∧
      (¬ Admits g.level v → h' = h) := by
  refine ⟨_, log_eq n g hf h hh.ok v format fmt, ?_, ?_, ?_⟩
  · intro i
    split
    · rename_i ha
      rw [applyAll_leaf, onLeaf_other _ (flushCalls_accepted g.sink), applyAll_leaf, onLeaf_push, deliveries_eq]
    · simp [eventsOf]
  · split
    · rw [applyAll_ub, applyAll_ub]
    · rfl
  · intro ha; rw [if_neg ha]

/-- the hypotheses and the count in a concrete case: a diamond, message INFO reaches sink 1 twice, sink 2 once -/
example : deliveries (.multi .trace [.leaf 1, .multi .info [.leaf 2, .leaf 1]]) (fun _ => .debug) .info 1 = 2 ∧
    deliveries (.multi .trace [.leaf 1, .multi .info [.leaf 2, .leaf 1]]) (fun _ => .debug) .debug 1 = 1 ∧
    deliveries (.multi .trace [.leaf 1, .multi .info [.leaf 2, .leaf 1]]) (fun _ => .debug) .trace 1 = 0 := by decide

example : AllReachable ⟨fun _ => Leaf.new (exampleFile .info 1000) exampleWorld true, false⟩ :=
  fun _ => ⟨exampleFile .info 1000, exampleWorld, true, ⟨by decide, by decide⟩, [], 0, rfl⟩

/-! ## C21 -/

/-- One log call: logger, level, format, formatting result. -/
abbrev LogCall := Logger × Level × Text × FmtResult

def runLog (fuel : Nat) (c : LogCall) (h : Heap) : Option Heap := c.1.log fuel c.2.1 c.2.2.1 c.2.2.2 h

def runLogs (fuel : Nat) : List LogCall → Heap → Option Heap
  | [], h => some h
  | c :: cs, h => (runLog fuel c h).bind (runLogs fuel cs)

theorem log_queues (n : Nat) (c : LogCall) (hf : Full c.1.sink) (h : Heap) (hh : h.Ok)
    (hq : ∀ i, (h.leaf i).queue = []) (hopen : ∀ i, (h.leaf i).Ok true) :
    ∃ h', runLog (n + 2) c h = some h' ∧ h'.Ok ∧ (∀ i, (h'.leaf i).queue = []) ∧ (∀ i, (h'.leaf i).Ok true) ∧
      ∀ i, (h'.leaf i).cfg = (h.leaf i).cfg := by
  obtain ⟨g, v, format, fmt⟩ := c
  refine ⟨_, log_eq n g hf h hh v format fmt, ?_⟩
  split
  · have hg1 := pushCalls_good ⟨g.name, v, format, fmt⟩ (route g.sink v)
    have hg2 := flushCalls_good g.sink
    refine ⟨applyAll_ok _ hg2 (applyAll_ok _ hg1 hh), ?_, ?_, ?_⟩
    · intro i
      rw [applyAll_leaf, applyAll_leaf]
      have h1 := onLeaf_push_queue ⟨g.name, v, format, fmt⟩ (route g.sink v) i (h.leaf i)
      have h2 := onLeaf_flush_queue g.sink i (onLeaf (pushCalls ⟨g.name, v, format, fmt⟩ (route g.sink v)) i (h.leaf i))
      have h3 := route_count_le g.sink v i
      rw [hq i, List.length_nil] at h1
      exact List.eq_nil_of_length_eq_zero (by omega)
    · intro i
      rw [applyAll_leaf, applyAll_leaf]
      have h1 := onLeaf_good _ hg1 i (hh.valid i) (hopen i)
      exact (onLeaf_good _ hg2 i (by rw [h1.2.cfg]; exact hh.valid i) h1.1).1
    · intro i
      rw [applyAll_leaf, applyAll_leaf]
      have h1 := onLeaf_good _ hg1 i (hh.valid i) (hopen i)
      rw [(onLeaf_good _ hg2 i (by rw [h1.2.cfg]; exact hh.valid i) h1.1).2.cfg, h1.2.cfg]
  · exact ⟨hh, hq, hopen, fun _ => rfl⟩

/-- **C21**, the true part: as long as the sinks are used by one thread at a time and only through loggers, after
every log call -- at every logger level, on any nesting of multisinks -- no event is queued anywhere, and every
event ever accepted by a console or file sink has been written to its stream.  Missing: an event pushed directly on
the sink before (`C21_refuted`), or another thread inside `flush` (`C21_refuted_concurrent`), keeps the record of a
log call from being written by the time the call returns. -/
theorem C21_log_call_writes_through_partial (cs : List LogCall) (hf : ∀ c ∈ cs, Full c.1.sink) (h : Heap)
    (hnew : ∀ i, ∃ cfg w, cfg.Valid ∧ h.leaf i = Leaf.new cfg w true) (n : Nat) :
    ∃ h', runLogs (n + 2) cs h = some h' ∧ ∀ i, (h'.leaf i).queue = [] ∧
      (Stream (h.leaf i).cfg.kind →
        (h'.leaf i).written.map (·.2) = (h'.leaf i).accepted.map fun e => ((h'.leaf i).record e).out) := by
  have key : ∀ (cs : List LogCall) (h : Heap), (∀ c ∈ cs, Full c.1.sink) → h.Ok → (∀ i, (h.leaf i).queue = []) →
      (∀ i, (h.leaf i).Ok true) →
      ∃ h', runLogs (n + 2) cs h = some h' ∧ (∀ i, (h'.leaf i).queue = []) ∧ (∀ i, (h'.leaf i).Ok true) ∧
        ∀ i, (h'.leaf i).cfg = (h.leaf i).cfg := by
    intro cs
    induction cs with
    | nil => intro h _ _ hq ho; exact ⟨h, rfl, hq, ho, fun _ => rfl⟩
    | cons c cs ih =>
      intro h hf hh hq ho
      obtain ⟨h1, e1, k1, k2, k3, k4⟩ := log_queues n c (hf c (List.mem_cons_self ..)) h hh hq ho
      obtain ⟨h2, e2, j2, j3, j4⟩ := ih h1 (fun c hc => hf c (List.mem_cons_of_mem _ hc)) k1 k2 k3
      refine ⟨h2, ?_, j2, j3, fun i => (j4 i).trans (k4 i)⟩
      rw [runLogs, e1]; exact e2
  have hok : ∀ i, (h.leaf i).cfg.Valid ∧ (h.leaf i).Ok true ∧ (h.leaf i).queue = [] := by
    intro i
    obtain ⟨cfg, w, hv, he⟩ := hnew i
    rw [he]
    exact ⟨hv, new_ok cfg w true, rfl⟩
  obtain ⟨h', e, hq, ho, hc⟩ := key cs h hf ⟨fun i => (hok i).1, fun i => ⟨true, (hok i).2.1⟩⟩
    (fun i => (hok i).2.2) (fun i => (hok i).2.1)
  refine ⟨h', e, fun i => ⟨hq i, fun hk => ?_⟩⟩
  obtain ⟨done, hd, hw⟩ := (ho i).split
  rw [hq i, List.append_nil] at hd
  rw [hd]
  exact hw (by rw [hc i]; exact hk) rfl

/-- The full C21 is false: after one event pushed directly on the sink, the record of an admitted log call is still
queued when the call returns (only the older event has been written). -/
theorem C21_refuted :
    ∃ (h : Heap), AllReachable h ∧ ∃ h', Logger.log 2 ⟨[], .info, .leaf 0⟩ .info [] (.ok "late".toList) h = some h' ∧
      (h'.leaf 0).queue.map (·.message) = ["late".toList] := by
  refine ⟨⟨fun _ => (Leaf.new (exampleFile .info 1000) exampleWorld true).pushed ⟨[], .info, [], .ok []⟩, false⟩,
    fun _ => ⟨exampleFile .info 1000, exampleWorld, true, ⟨by decide, by decide⟩,
      [.push ⟨[], .info, [], .ok []⟩], 0, rfl⟩, _, rfl, rfl⟩

/-! ## C16 -/

/-- **C16**, same effect: a macro and the direct call leave the sinks in the same state, for every logger, level,
argument expressions and user state (the argument expressions can change only the user's state). -/
theorem C16_macro_same_effect {σ : Type} (g : Logger) (v : Level) (args : Args σ) (s : σ) (h : Heap) (fuel : Nat) :
    (macroCall fuel g v args s h).map (·.2) = (directCall fuel g v args s h).map (·.2) := by
  unfold macroCall
  split
  · rfl
  · rename_i hl
    unfold directCall
    simp [Logger.log, hl]

/-- **C16**, laziness: if the logger's level does not admit the event the arguments are not evaluated (the user's
state is untouched) and nothing happens. -/
theorem C16_macro_lazy {σ : Type} (g : Logger) (v : Level) (args : Args σ) (s : σ) (h : Heap) (fuel : Nat)
    (hl : ¬ v ≤ g.level) : macroCall fuel g v args s h = some (s, h) := by
  unfold macroCall; rw [if_neg hl]

/-- ... and if it does, the macro is the direct call, user's state included. -/
theorem C16_macro_admitted {σ : Type} (g : Logger) (v : Level) (args : Args σ) (s : σ) (h : Heap) (fuel : Nat)
    (hl : v ≤ g.level) : macroCall fuel g v args s h = directCall fuel g v args s h := by
  unfold macroCall; rw [if_pos hl]

/-- **C16** for `SL_TRACE` and `SL_DEBUG`: without the compile-time switches they behave like the other macros; with
`WITHOUT_TRACE_LOG_LEVEL` the trace macro does nothing; giving only `WITHOUT_DEBUG_LOG_LEVEL` switches nothing off. -/
theorem C16_trace_debug_switches {σ : Type} (g : Logger) (args : Args σ) (s : σ) (h : Heap) (fuel : Nat) :
    slTrace ⟨false, false⟩ fuel g args s h = macroCall fuel g .trace args s h ∧
    slDebug ⟨false, false⟩ fuel g args s h = macroCall fuel g .debug args s h ∧
    slTrace ⟨true, false⟩ fuel g args s h = some (s, h) ∧
    slDebug ⟨true, true⟩ fuel g args s h = some (s, h) ∧
    slDebug ⟨false, true⟩ fuel g args s h = macroCall fuel g .debug args s h := ⟨rfl, rfl, rfl, rfl, rfl⟩

/-- a concrete pair: an argument expression with a side effect, admitted and not admitted -/
example : let args : Args Nat := fun s => (s + 1, [], .ok [])
    let h : Heap := ⟨fun _ => Leaf.new (exampleFile .info 1000) exampleWorld true, false⟩
    (macroCall 2 ⟨[], .info, .leaf 0⟩ .info args 5 h).map (·.1) = some 6 ∧
    (macroCall 2 ⟨[], .info, .leaf 0⟩ .debug args 5 h).map (·.1) = some 5 := ⟨rfl, rfl⟩

end Sink
end Soralog
