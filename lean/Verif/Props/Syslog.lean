import Verif.Proofs.Syslog
import Verif.Props.Sink
import Verif.Props.Render
/-!
# C54, C55: the syslog sink

`flush()` of a sink whose queue holds the events `es` processes them in one go; other threads may add events while it runs, which
then belong to the same run, so `es` stands for all events processed by one run.
-/
namespace Soralog
namespace Sink
open Spec Render

/-! ## C54 -/

/-- **C54**, number, order and priorities of the calls: whatever is queued, one run of `flush` makes one call for each event that
has a priority, in order, with that priority. -/
theorem C54_calls_partial (l : Leaf) (hk : l.cfg.kind = .syslog) :
    l.flush.written.map (·.1) = l.written.map (·.1) ++ l.queue.filterMap fun e => syslogPriority e.level := by
  unfold Leaf.flush
  rw [hk]
  dsimp only
  rw [drain_priorities]
  simp only [priority_eq]

/-- What really is sent: every call of one run has the text of the first event of the run. -/
theorem C54_first_text_partial (l : Leaf) (hk : l.cfg.kind = .syslog) (hlt : ∀ s, (l.w.lt s).Ok) {e : Event} {rest : List Event}
    (hq : l.queue = e :: rest) (he : Sendable l.cfg.maxLen e) (hb : 95 + l.cfg.maxLen ≤ l.cfg.maxBuffer) :
    l.flush.written = l.written ++ callsFor (fun _ => ownText l.w.lt l.cfg.ti e) l.queue := by
  unfold Leaf.flush
  rw [hk, hq]
  dsimp only
  rw [Leaf.drainSyslog]
  dsimp only
  obtain ⟨hg, hp⟩ := Cache.update_good l.w.lt hlt Cache.init (Spec.second e.timestamp) Cache.init_length (.inr (fun h => he.later h.symm))
  have hdt : (Cache.init.update l.w.lt (Spec.second e.timestamp)).datetime = stamp l.w.lt (Spec.second e.timestamp) := by
    have := hg; unfold Cache.Good at this; rw [this, hp]
  have hfit := syslogRecord_fits l.w.lt l.cfg.ti Cache.init l.staging e he.wf (by
    rw [hdt]
    have := compact_length_le (stamp l.w.lt (Spec.second e.timestamp)) l.cfg.ti e he.wf (stamp_length _ _)
    show 0 + _ + 1 ≤ l.cfg.maxBuffer
    omega)
  rw [hdt] at hfit
  have hnul : '\x00' ∉ ownText l.w.lt l.cfg.ti e := compact_no_nul he.wf (stamp_no_nul _ _) he.name he.message
  have hout : (syslogRecord l.w.lt l.cfg.ti Cache.init l.staging e).1.out = ownText l.w.lt l.cfg.ti e ++ '\x00' :: [] := by
    rw [hfit]; simp [Leaf.staging, ownText_eq]
  rw [drain_same rest _ _ _ hout hnul]
  cases hpr : priority e.level with
  | none => simp [callsFor, ← priority_eq, hpr]
  | some p => simp [callsFor, ← priority_eq, hpr, hout, cstr_append hnul]

/-- **C54** if at most one event is queued. -/
theorem C54_single_partial (l : Leaf) (hk : l.cfg.kind = .syslog) (hlt : ∀ s, (l.w.lt s).Ok) (hq : l.queue.length ≤ 1)
    (he : ∀ e ∈ l.queue, Sendable l.cfg.maxLen e) (hb : 95 + l.cfg.maxLen ≤ l.cfg.maxBuffer) :
    l.flush.written = l.written ++ callsFor (ownText l.w.lt l.cfg.ti) l.queue := by
  cases hq' : l.queue with
  | nil =>
    unfold Leaf.flush
    rw [hk, hq']
    simp [Leaf.drainSyslog, callsFor]
  | cons e rest =>
    rw [C54_first_text_partial l hk hlt hq' (he e (by rw [hq']; exact List.mem_cons_self)) hb, hq']
    have : rest = [] := by
      rw [hq', List.length_cons] at hq
      exact List.eq_nil_of_length_eq_zero (by omega)
    subst this
    simp only [callsFor, List.filterMap_cons, List.filterMap_nil]

theorem callsFor_eq_iff (f g : Event → Text) (es : List Event) :
    callsFor f es = callsFor g es ↔ ∀ e ∈ es, syslogPriority e.level ≠ none → f e = g e := by
  unfold callsFor
  induction es with
  | nil => simp
  | cons e es ih =>
    cases hp : syslogPriority e.level with
    | none => simp [hp, ih]
    | some p => simp [hp, ih]

/-- **C54**, exactly when it holds: iff all events of the run that are sent have the same text as the first event of the run. -/
theorem C54_iff_partial (l : Leaf) (hk : l.cfg.kind = .syslog) (hlt : ∀ s, (l.w.lt s).Ok) {e : Event} {rest : List Event}
    (hq : l.queue = e :: rest) (he : Sendable l.cfg.maxLen e) (hb : 95 + l.cfg.maxLen ≤ l.cfg.maxBuffer) :
    l.flush.written = l.written ++ callsFor (ownText l.w.lt l.cfg.ti) l.queue ↔
      ∀ x ∈ l.queue, syslogPriority x.level ≠ none → ownText l.w.lt l.cfg.ti x = ownText l.w.lt l.cfg.ti e := by
  rw [C54_first_text_partial l hk hlt hq he hb, List.append_cancel_left_eq, callsFor_eq_iff]
  exact ⟨fun h x hx hp => (h x hx hp).symm, fun h x hx hp => (h x hx hp).symm⟩

/-- a syslog sink as the configurator makes it by default (sink_to_syslog.cpp:85-88) -/
def exampleSyslog (latency : Nat) : Cfg := Cfg.mk' .syslog .trace .none 2048 1024 (2 ^ 22) latency

/-- **C54 is false**: two messages pushed to a default syslog sink and flushed arrive with the text of the first one. -/
theorem C54_refuted : ∃ l, Leaf.run 2 (Leaf.new (exampleSyslog 1000) exampleWorld true)
    [.push ⟨"a".toList, .info, [], .ok "one".toList⟩, .push ⟨"a".toList, .error, [], .ok "two".toList⟩, .flush] = some l ∧
    ∃ t, l.written = [(5, t), (1, t)] ∧ l.accepted.map (·.message) = ["one".toList, "two".toList] :=
  ⟨_, rfl, _, rfl, rfl⟩

/-- the two events of the example -/
example : Sendable 1024 (mkEvent (exampleWorld.env 0) .none 1024 ⟨"a".toList, .info, [], .ok "one".toList⟩) :=
  ⟨mkEvent_wf _ _ _ _ (by decide) (by decide), by decide, by decide, by decide⟩
example : ∀ s, (exampleWorld.lt s).Ok := fun _ => by show Tm.Ok ⟨24, 1, 2, 3, 4, 5⟩; unfold Tm.Ok; decide
example : 95 + (exampleSyslog 1000).maxLen ≤ (exampleSyslog 1000).maxBuffer := by decide

/-- nothing is queued, and syslog has been told the own text of every event accepted so far -/
structure Told (l : Leaf) : Prop where
  queue : l.queue = []
  written : l.written = callsFor (ownText l.w.lt l.cfg.ti) l.accepted

theorem callsFor_append (f : Event → Text) (a b : List Event) : callsFor f (a ++ b) = callsFor f a ++ callsFor f b := by
  simp [callsFor]

theorem told_flush {l : Leaf} (h : Told l) (hk : l.cfg.kind = .syslog) : Told l.flush := by
  have hf : l.flush.written = l.written := by
    unfold Leaf.flush; rw [hk, h.queue]; rfl
  refine ⟨by rw [flush_queue, h.queue]; simp, ?_⟩
  rw [hf, h.written, (flush_same l).cfg, (flush_same l).w, flush_accepted]

theorem told_store_flush {l : Leaf} (h : Told l) (hk : l.cfg.kind = .syslog) (hlt : ∀ s, (l.w.lt s).Ok)
    (hb : 95 + l.cfg.maxLen ≤ l.cfg.maxBuffer) {m : Msg}
    (he : Sendable l.cfg.maxLen (mkEvent (l.w.env l.accepted.length) l.cfg.ti l.cfg.maxLen m)) (b : Bool) :
    Told { l.store m with needFlush := b }.flush := by
  have hq : ({ l.store m with needFlush := b } : Leaf).queue = [mkEvent (l.w.env l.accepted.length) l.cfg.ti l.cfg.maxLen m] := by
    show l.queue ++ _ = _
    rw [h.queue]; rfl
  have hs := C54_single_partial { l.store m with needFlush := b } hk hlt (by rw [hq]; exact Nat.le_refl 1) (by
    intro e hm
    rw [hq] at hm
    rw [List.mem_singleton.1 hm]
    exact he) hb
  refine ⟨?_, ?_⟩
  · rw [flush_queue]
    show (if Stream l.cfg.kind then _ else _) = _
    rw [hk]
    rfl
  · rw [hs, (flush_same _).cfg, (flush_same _).w, flush_accepted, hq]
    show l.written ++ _ = callsFor _ (l.accepted ++ [_])
    rw [callsFor_append, h.written]
    rfl

theorem told_pushed {l : Leaf} (h : Told l) (hk : l.cfg.kind = .syslog) (hlt : ∀ s, (l.w.lt s).Ok)
    (hb : 95 + l.cfg.maxLen ≤ l.cfg.maxBuffer) (hc : 1 ≤ l.cfg.capacity) (hz : l.cfg.latency = 0) {m : Msg}
    (he : Sendable l.cfg.maxLen (mkEvent (l.w.env l.accepted.length) l.cfg.ti l.cfg.maxLen m)) : Told (l.pushed m) := by
  unfold Leaf.pushed
  rw [h.queue, if_pos (show ([] : List Event).length < _ from hc)]
  unfold Leaf.afterStore
  rw [if_pos (show (l.store m).cfg.latency = 0 from hz)]
  exact told_store_flush h hk hlt hb he _

/-- **C54** for sinks with latency 0 used by one thread at a time: after any history of calls syslog has received, for each accepted
event that has a priority, one call with its own text, in order. -/
theorem C54_zero_latency_partial (cfg : Cfg) (w : World) (hk : cfg.kind = .syslog) (hz : cfg.latency = 0) (hc : 1 ≤ cfg.capacity)
    (hlt : ∀ s, (w.lt s).Ok) (hb : 95 + cfg.maxLen ≤ cfg.maxBuffer) (ops : List Op) (n : Nat)
    (he : ∀ e ∈ eventsOf w.env cfg.ti cfg.maxLen 0 (admitted cfg.level ops), Sendable cfg.maxLen e) :
    ∃ l, Leaf.run (n + 2) (Leaf.new cfg w true) ops = some l ∧ l.queue = [] ∧
      l.written = callsFor (ownText w.lt cfg.ti) (eventsOf w.env cfg.ti cfg.maxLen 0 (admitted cfg.level ops)) := by
  have key : ∀ (ops : List Op) (l : Leaf), l.cfg = cfg → l.w = w → Told l →
      (∀ e ∈ eventsOf w.env cfg.ti cfg.maxLen l.accepted.length (admitted cfg.level ops), Sendable cfg.maxLen e) →
      ∃ l', l.run (n + 2) ops = some l' ∧ Told l' ∧ l'.cfg = cfg ∧ l'.w = w ∧
        l'.accepted = l.accepted ++ eventsOf w.env cfg.ti cfg.maxLen l.accepted.length (admitted cfg.level ops) := by
    intro ops
    induction ops with
    | nil => intro l e1 e2 ht _; exact ⟨l, rfl, ht, e1, e2, by simp [admitted, eventsOf]⟩
    | cons op ops ih =>
      intro l e1 e2 ht he
      have hstep : ∃ l1, l.step (n + 2) op = some l1 ∧ Told l1 ∧ l1.cfg = cfg ∧ l1.w = w ∧
          l1.accepted = l.accepted ++ eventsOf w.env cfg.ti cfg.maxLen l.accepted.length (admitted cfg.level [op]) := by
        cases op with
        | push m =>
          by_cases ha : Admits cfg.level m.level
          · refine ⟨l.pushed m, push_admitted n (by rw [e1]; exact hc) (by rw [ht.queue]; exact Nat.zero_le _) (by rw [e1]; exact ha),
              ?_, by rw [(pushed_same l m).cfg, e1], by rw [(pushed_same l m).w, e2], ?_⟩
            · refine told_pushed ht (by rw [e1]; exact hk) (by rw [e2]; exact hlt) (by rw [e1]; exact hb) (by rw [e1]; exact hc)
                (by rw [e1]; exact hz) ?_
              rw [e1, e2]
              exact he _ (by simp [admitted, ha, eventsOf])
            · rw [pushed_accepted, e1, e2]
              simp [admitted, ha, eventsOf]
          · exact ⟨l, push_rejected _ (by rw [e1]; exact ha), ht, e1, e2, by simp [admitted, ha, eventsOf]⟩
        | flush => exact ⟨_, rfl, told_flush ht (by rw [e1]; exact hk), by rw [(flush_same l).cfg, e1], by rw [(flush_same l).w, e2],
            by simp [admitted, eventsOf, flush_accepted]⟩
        | asyncFlush =>
          have : l.asyncFlush = l.flush := by
            unfold Leaf.asyncFlush; rw [e1, hk]; simp [hz]
          refine ⟨_, rfl, ?_, by rw [(asyncFlush_same l).cfg, e1], by rw [(asyncFlush_same l).w, e2],
            by simp [admitted, eventsOf, asyncFlush_accepted]⟩
          rw [this]
          exact told_flush ht (by rw [e1]; exact hk)
        | rotate =>
          have : l.rotate = l := by unfold Leaf.rotate; rw [e1, hk]
          refine ⟨_, rfl, by rw [this]; exact ht, by rw [this, e1], by rw [this, e2], by simp [admitted, eventsOf, this]⟩
      obtain ⟨l1, h1, h2, h3, h4, h5⟩ := hstep
      rw [admitted_cons, eventsOf_append] at he
      obtain ⟨l2, g1, g2, g3, g4, g5⟩ := ih l1 h3 h4 h2 (by
        intro e hm
        apply he
        rw [h5, List.length_append, eventsOf_length] at hm
        exact List.mem_append_right _ hm)
      refine ⟨l2, by rw [Leaf.run, h1]; exact g1, g2, g3, g4, ?_⟩
      rw [g5, h5, admitted_cons cfg.level op ops, eventsOf_append, List.append_assoc, List.length_append, eventsOf_length]
  obtain ⟨l, h1, h2, h3, h4, h5⟩ := key ops (Leaf.new cfg w true) rfl rfl ⟨rfl, rfl⟩ he
  refine ⟨l, h1, h2.queue, ?_⟩
  rw [h2.written, h3, h4, h5]
  rfl

example : ∃ l, Leaf.run 2 (Leaf.new (exampleSyslog 0) exampleWorld true)
    [.push ⟨"a".toList, .info, [], .ok "one".toList⟩, .push ⟨"a".toList, .error, [], .ok "two".toList⟩] = some l ∧
    l.written.map (·.1) = [5, 1] := ⟨_, rfl, rfl⟩

theorem async_late (l : Leaf) (hk : l.cfg.kind = .syslog) (hz : l.cfg.latency ≠ 0) : l.asyncFlush = { l with needFlush := true } := by
  unfold Leaf.asyncFlush
  split
  next h => rw [hk] at h; cases h
  · rw [if_pos hz]

/-- a call of a logger -/
structure SlCall where
  logger : Logger
  level : Level
  format : Text
  fmt : FmtResult

/-- the message of the call, if the logger lets it pass (C15) -/
def SlCall.msg (c : SlCall) : Msg := { name := c.logger.name, level := c.level, format := c.format, fmt := c.fmt }

/-- some calls, one after the other -/
def slAll (fuel : Nat) : List SlCall → Heap → Option Heap
  | [], h => some h
  | c :: cs, h => (c.logger.log fuel c.level c.format c.fmt h).bind (slAll fuel cs)

/-- the messages of the calls that pass the level of their logger and of the sink -/
def slPassing (own : Level) (cs : List SlCall) : List Msg :=
  (cs.filter fun c => decide (Admits c.logger.level c.level ∧ Admits own c.level)).map SlCall.msg

/-- **C54** for any latency if the sink is used only through loggers, by one thread at a time: each call of a logger ends with
`flush`, so the queue never holds more than one event, and syslog receives for each message that passes both levels and has a
priority one call with its own text, in order. -/
theorem C54_loggers_partial (cfg : Cfg) (hk : cfg.kind = .syslog) (hc : 1 ≤ cfg.capacity) (hb : 95 + cfg.maxLen ≤ cfg.maxBuffer)
    (w : World) (hlt : ∀ s, (w.lt s).Ok) (i n : Nat) (cs : List SlCall) (hcs : ∀ c ∈ cs, c.logger.sink = .leaf i)
    (h : Heap) (h0 : h.leaf i = Leaf.new cfg w true)
    (he : ∀ e ∈ eventsOf w.env cfg.ti cfg.maxLen 0 (slPassing cfg.level cs), Sendable cfg.maxLen e) :
    ∃ h', slAll (n + 2) cs h = some h' ∧
      (h'.leaf i).written = callsFor (ownText w.lt cfg.ti) (eventsOf w.env cfg.ti cfg.maxLen 0 (slPassing cfg.level cs)) := by
  have key : ∀ (cs : List SlCall) (h : Heap), (∀ c ∈ cs, c.logger.sink = .leaf i) → (h.leaf i).cfg = cfg → (h.leaf i).w = w →
      Told (h.leaf i) →
      (∀ e ∈ eventsOf w.env cfg.ti cfg.maxLen (h.leaf i).accepted.length (slPassing cfg.level cs), Sendable cfg.maxLen e) →
      ∃ h', slAll (n + 2) cs h = some h' ∧ Told (h'.leaf i) ∧ (h'.leaf i).cfg = cfg ∧ (h'.leaf i).w = w ∧
        (h'.leaf i).accepted = (h.leaf i).accepted ++
          eventsOf w.env cfg.ti cfg.maxLen (h.leaf i).accepted.length (slPassing cfg.level cs) := by
    intro cs
    induction cs with
    | nil => intro h _ e1 e2 ht _; exact ⟨h, rfl, ht, e1, e2, by simp [slPassing, eventsOf]⟩
    | cons c cs ih =>
      intro h hcs e1 e2 ht he
      have hsk := hcs c List.mem_cons_self
      have hstep : ∃ h1, c.logger.log (n + 2) c.level c.format c.fmt h = some h1 ∧ Told (h1.leaf i) ∧ (h1.leaf i).cfg = cfg ∧
          (h1.leaf i).w = w ∧ (h1.leaf i).accepted = (h.leaf i).accepted ++
            eventsOf w.env cfg.ti cfg.maxLen (h.leaf i).accepted.length (slPassing cfg.level [c]) := by
        by_cases hp : Admits c.logger.level c.level
        · have hcrit : Level.critical ≤ c.logger.level := by
            obtain ⟨⟨p1, p2⟩, p3⟩ := hp
            revert p1 p2 p3
            cases c.level <;> cases c.logger.level <;> decide
          by_cases ha : Admits cfg.level c.level
          · refine ⟨(h.set i ((h.leaf i).pushed c.msg)).set i ((h.leaf i).pushed c.msg).flush, ?_, ?_⟩
            · unfold Logger.log
              rw [if_pos hp.2, if_pos ⟨hp.1.1, hp.1.2⟩, hsk, Snk.push]
              have := push_admitted (l := h.leaf i) (m := c.msg) n (by rw [e1]; exact hc) (by rw [ht.queue]; exact Nat.zero_le _)
                (by rw [e1]; exact ha)
              rw [show ({ name := c.logger.name, level := c.level, format := c.format, fmt := c.fmt } : Msg) = c.msg from rfl, this]
              simp only [Option.map_some, if_pos hcrit, Snk.flush, Heap.set, if_true]
            · have hl : ((h.set i ((h.leaf i).pushed c.msg)).set i ((h.leaf i).pushed c.msg).flush).leaf i =
                  ((h.leaf i).pushed c.msg).flush := by simp [Heap.set]
              rw [hl]
              have hsend : Sendable (h.leaf i).cfg.maxLen
                  (mkEvent ((h.leaf i).w.env (h.leaf i).accepted.length) (h.leaf i).cfg.ti (h.leaf i).cfg.maxLen c.msg) := by
                rw [e1, e2]
                exact he _ (by simp [slPassing, hp, ha, eventsOf])
              refine ⟨?_, by rw [(flush_same _).cfg, (pushed_same _ _).cfg, e1], by rw [(flush_same _).w, (pushed_same _ _).w, e2],
                by rw [flush_accepted, pushed_accepted, e1, e2]; simp [slPassing, hp, ha, eventsOf]⟩
              by_cases hz : cfg.latency = 0
              · exact told_flush (told_pushed ht (by rw [e1]; exact hk) (by rw [e2]; exact hlt) (by rw [e1]; exact hb)
                  (by rw [e1]; exact hc) (by rw [e1]; exact hz) hsend) (by rw [(pushed_same _ _).cfg, e1]; exact hk)
              · have hp' : ∃ b, (h.leaf i).pushed c.msg = { (h.leaf i).store c.msg with needFlush := b } := by
                  unfold Leaf.pushed
                  rw [ht.queue, if_pos (show ([] : List Event).length < _ by rw [e1]; exact hc)]
                  unfold Leaf.afterStore
                  rw [if_neg (show ¬ ((h.leaf i).store c.msg).cfg.latency = 0 by show ¬ (h.leaf i).cfg.latency = 0; rw [e1]; exact hz)]
                  split
                  · refine ⟨true, ?_⟩
                    exact async_late _ (by show (h.leaf i).cfg.kind = _; rw [e1]; exact hk)
                      (by show (h.leaf i).cfg.latency ≠ 0; rw [e1]; exact hz)
                  · exact ⟨((h.leaf i).store c.msg).needFlush, rfl⟩
                obtain ⟨b, hb'⟩ := hp'
                rw [hb']
                exact told_store_flush ht (by rw [e1]; exact hk) (by rw [e2]; exact hlt) (by rw [e1]; exact hb) hsend b
          · refine ⟨(h.set i (h.leaf i)).set i (h.leaf i).flush, ?_, ?_⟩
            · unfold Logger.log
              rw [if_pos hp.2, if_pos ⟨hp.1.1, hp.1.2⟩, hsk, Snk.push]
              have := push_rejected (l := h.leaf i) (m := c.msg) (n + 2) (by rw [e1]; exact ha)
              rw [show ({ name := c.logger.name, level := c.level, format := c.format, fmt := c.fmt } : Msg) = c.msg from rfl, this]
              simp only [Option.map_some, if_pos hcrit, Snk.flush, Heap.set, if_true]
            · have hl : ((h.set i (h.leaf i)).set i (h.leaf i).flush).leaf i = (h.leaf i).flush := by simp [Heap.set]
              rw [hl]
              exact ⟨told_flush ht (by rw [e1]; exact hk), by rw [(flush_same _).cfg, e1], by rw [(flush_same _).w, e2],
                by rw [flush_accepted]; simp [slPassing, ha, eventsOf]⟩
        · refine ⟨h, ?_, ht, e1, e2, by simp [slPassing, hp, eventsOf]⟩
          unfold Logger.log
          by_cases h1 : c.level ≤ c.logger.level
          · rw [if_pos h1, if_neg (fun h2 : c.level ≠ .off ∧ c.level ≠ .ignore => hp ⟨h2, h1⟩)]
          · rw [if_neg h1]
      obtain ⟨h1, g1, g2, g3, g4, g5⟩ := hstep
      have hcons : slPassing cfg.level (c :: cs) = slPassing cfg.level [c] ++ slPassing cfg.level cs := by
        unfold slPassing
        rw [← List.map_append, ← List.filter_append]; rfl
      rw [hcons, eventsOf_append] at he
      obtain ⟨h2, f1, f2, f3, f4, f5⟩ := ih h1 (fun x hx => hcs x (List.mem_cons_of_mem _ hx)) g3 g4 g2 (by
        intro e hm
        apply he
        rw [g5, List.length_append, eventsOf_length] at hm
        exact List.mem_append_right _ hm)
      refine ⟨h2, by rw [slAll, g1]; exact f1, f2, f3, f4, ?_⟩
      rw [f5, g5, hcons, eventsOf_append, List.append_assoc, List.length_append, eventsOf_length]
  obtain ⟨h', h1, h2, h3, h4, h5⟩ := key cs h hcs (by rw [h0]; rfl) (by rw [h0]; rfl) (by rw [h0]; exact ⟨rfl, rfl⟩) (by rw [h0]; exact he)
  refine ⟨h', h1, ?_⟩
  rw [h2.written, h3, h4, h5, h0]
  rfl

example : (slAll 2 [⟨⟨"a".toList, .trace, .leaf 0⟩, .info, [], .ok "one".toList⟩, ⟨⟨"b".toList, .trace, .leaf 0⟩, .trace, [], .ok "t".toList⟩,
    ⟨⟨"b".toList, .trace, .leaf 0⟩, .error, [], .ok "two".toList⟩]
    { leaf := fun _ => Leaf.new (exampleSyslog 1000) exampleWorld true, ub := false }).map (fun h => (h.leaf 0).written.map (·.1)) =
    some [5, 1] := by decide +kernel

/-! ## C55 -/

theorem bytesOf_eq (lt : LocalTime) (ti : ThreadInfo) (e : Event) : bytesOf lt ti e = (compact (stamp lt 0) ti e).length + 1 := by
  simp [bytesOf, ownText_eq, compact, compactRecord, stamp_length]

theorem flush_ub (l : Leaf) (hk : l.cfg.kind = .syslog) (he : ∀ e ∈ l.queue, WF l.cfg.maxLen e) :
    l.flush.ub = (l.ub || decide (l.cfg.maxBuffer < (l.queue.map (bytesOf l.w.lt l.cfg.ti)).sum)) := by
  have e1 : (fun e => (compact (stamp l.w.lt 0) l.cfg.ti e).length + 1) = bytesOf l.w.lt l.cfg.ti := by
    funext e; rw [bytesOf_eq]
  have := drain_ub l.queue Cache.init l.staging l he (Nat.zero_le _) rfl Cache.init_length
  rw [e1] at this
  unfold Leaf.flush
  rw [hk]
  refine this.trans ?_
  simp [Leaf.staging]

/-- **C55**, exactly when it holds: one run of `flush` stores outside the staging buffer iff the events of the run together need more
bytes than the buffer has. -/
theorem C55_iff_partial (l : Leaf) (hk : l.cfg.kind = .syslog) (hu : l.ub = false) (he : ∀ e ∈ l.queue, WF l.cfg.maxLen e) :
    l.flush.ub = true ↔ l.cfg.maxBuffer < (l.queue.map (bytesOf l.w.lt l.cfg.ti)).sum := by
  rw [flush_ub l hk he, hu]
  simp

theorem sum_le (f : Event → Nat) (b : Nat) (es : List Event) (h : ∀ e ∈ es, f e ≤ b) : (es.map f).sum ≤ es.length * b := by
  induction es with
  | nil => simp
  | cons e es ih =>
    have h1 := h e List.mem_cons_self
    have h2 := ih fun x hx => h x (List.mem_cons_of_mem _ hx)
    rw [List.map_cons, List.sum_cons, List.length_cons, Nat.succ_mul]
    omega

/-- **C55** if the buffer has room for as many records as the queue has places (one thread at a time; the defaults satisfy it). -/
theorem C55_roomy_partial (cfg : Cfg) (w : World) (hv : cfg.Valid) (hk : cfg.kind = .syslog)
    (hb : cfg.capacity * (95 + cfg.maxLen) ≤ cfg.maxBuffer) (hnow : ∀ k, 0 ≤ (w.env k).now) (hnum : ∀ k, (w.env k).threadNumber < 2 ^ 64)
    (l : Leaf) (h : Reachable cfg w true l) (hu : l.ub = false) : l.flush.ub = false := by
  obtain ⟨ho, hc, hw⟩ := reachable_ok hv h
  have hall : ∀ e ∈ l.queue, WF l.cfg.maxLen e := by
    intro e hm
    obtain ⟨done, ha, _⟩ := ho.split
    obtain ⟨ops, n, hr⟩ := h
    have hacc := reachable_accepted hv hr
    rw [ha] at hacc
    have : e ∈ eventsOf w.env cfg.ti cfg.maxLen 0 (admitted cfg.level ops) := by
      rw [← hacc]; exact List.mem_append_right _ hm
    obtain ⟨m, _, k, hk⟩ := eventsOf_mem this
    rw [hk, hc]
    exact mkEvent_wf _ _ _ _ (hnow k) (hnum k)
  cases hf : l.flush.ub with
  | false => rfl
  | true =>
    have h1 := (C55_iff_partial l (by rw [hc]; exact hk) hu hall).1 hf
    have h2 := sum_le (bytesOf l.w.lt l.cfg.ti) (95 + l.cfg.maxLen) l.queue (by
      intro e hm
      have := compact_length_le (stamp l.w.lt (Spec.second e.timestamp)) l.cfg.ti e (hall e hm) (stamp_length _ _)
      unfold bytesOf; rw [ownText_eq]
      omega)
    have h3 : l.queue.length * (95 + l.cfg.maxLen) ≤ l.cfg.capacity * (95 + l.cfg.maxLen) := Nat.mul_le_mul_right _ ho.cap
    rw [hc] at h1 h2 h3
    omega

example : (exampleSyslog 1000).capacity * (95 + (exampleSyslog 1000).maxLen) ≤ (exampleSyslog 1000).maxBuffer := by decide

/-- capacity, message limit and buffer at the limits the configurator accepts (8 events, 64 bytes, 416 bytes) -/
def smallSyslog : Cfg := Cfg.mk' .syslog .trace .none 8 64 416 1000

/-- **C55 is false**: with parameters that the configurator accepts, five messages of 64 bytes pushed and one flush store outside the
buffer. -/
theorem C55_refuted : ∃ l, Leaf.run 2 (Leaf.new smallSyslog exampleWorld true)
    (List.replicate 5 (.push ⟨[], .info, [], .ok (List.replicate 64 'x')⟩)) = some l ∧ l.ub = false ∧ l.queue.length = 5 ∧
    l.flush.ub = true :=
  ⟨_, rfl, by decide +kernel, by decide +kernel, by decide +kernel⟩

/-- **C55 is false** for every size of the buffer, also the default one, if other threads keep adding events while `flush` runs: some
number of events processed by one run is too much. -/
theorem C55_every_buffer_refuted (l : Leaf) (hk : l.cfg.kind = .syslog) (e : Event) (he : WF l.cfg.maxLen e) :
    ∃ n, ∀ k, n ≤ k → ({ l with queue := List.replicate k e } : Leaf).flush.ub = true := by
  refine ⟨l.cfg.maxBuffer + 1, fun k hk' => ?_⟩
  have := flush_ub { l with queue := List.replicate k e } hk (fun x hx => by rw [List.eq_of_mem_replicate hx]; exact he)
  rw [this, Bool.or_eq_true]
  right
  apply decide_eq_true
  show l.cfg.maxBuffer < ((List.replicate k e).map _).sum
  rw [List.map_replicate, List.sum_replicate_nat]
  have : 1 ≤ bytesOf l.w.lt l.cfg.ti e := Nat.succ_le_succ (Nat.zero_le _)
  have := Nat.mul_le_mul_left k this
  show _ < k * bytesOf l.w.lt l.cfg.ti e
  omega

end Sink
end Soralog
