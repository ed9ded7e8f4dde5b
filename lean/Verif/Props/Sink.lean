import Verif.Proofs.SinkTree
/-!
# C13–C23, C30, C31, C59, C61: sinks, multisinks, loggers and macros, one thread at a time

`Leaf.run (n+2) (Leaf.new cfg w opened) ops = some l` means: after the calls `ops` on a new sink with
configuration `cfg` in environment `w` the sink is in state `l`.  The number `n + 2` bounds the iterations of the
loop inside one `push`; that two are always enough is C18.
-/
namespace Soralog
namespace Sink
open Spec

/-- `l` is the state of a sink after some history of calls; `opened` tells whether its file could be opened. -/
def Reachable (cfg : Cfg) (w : World) (opened : Bool) (l : Leaf) : Prop :=
  ∃ ops n, Leaf.run (n + 2) (Leaf.new cfg w opened) ops = some l

theorem reachable_ok {cfg : Cfg} {w : World} {o : Bool} {l : Leaf} (hv : cfg.Valid) (h : Reachable cfg w o l) :
    l.Ok o ∧ l.cfg = cfg ∧ l.w = w := by
  obtain ⟨ops, n, hr⟩ := h
  obtain ⟨l', h1, h2, h3, _⟩ := run_spec (l := Leaf.new cfg w o) n hv (new_ok cfg w o) ops
  rw [hr] at h1
  cases h1
  exact ⟨h2, h3.cfg, h3.w⟩

theorem reachable_accepted {cfg : Cfg} {w : World} {o : Bool} {l : Leaf} (hv : cfg.Valid) {ops : List Op} {n : Nat}
    (hr : Leaf.run (n + 2) (Leaf.new cfg w o) ops = some l) :
    l.accepted = eventsOf w.env cfg.ti cfg.maxLen 0 (admitted cfg.level ops) := by
  obtain ⟨l', h1, _, _, h4⟩ := run_spec (l := Leaf.new cfg w o) n hv (new_ok cfg w o) ops
  rw [hr] at h1
  cases h1
  rw [h4]; rfl

/-! ## C13 -/

/-- **C13**.  For a sink with a queue in any reachable state: an admissible push puts exactly one event into the
queue (behind everything accepted before); any other push has no effect at all. -/
theorem C13_filter_exact (cfg : Cfg) (w : World) (o : Bool) (l : Leaf) (hv : cfg.Valid)
    (h : Reachable cfg w o l) (m : Msg) (n : Nat) :
    (Admits cfg.level m.level → ∃ l', l.push (n + 2) m = some l' ∧
      l'.accepted = l.accepted ++ [mkEvent (w.env l.accepted.length) cfg.ti cfg.maxLen m]) ∧
    (¬ Admits cfg.level m.level → l.push (n + 2) m = some l) := by
  obtain ⟨ho, hc, hw⟩ := reachable_ok hv h
  subst hc; subst hw
  exact ⟨fun ha => ⟨_, push_admitted n hv.1 ho.cap ha, pushed_accepted l m⟩, fun ha => push_rejected _ ha⟩

/-- **C13** for multisinks: a push their own level does not admit has no effect on any sink. -/
theorem C13_multisink_rejects (lv : Level) (subs : List Snk) (h : Heap) (m : Msg) (fuel : Nat)
    (ha : ¬ Admits lv m.level) : Snk.push fuel m (.multi lv subs) h = some h := by
  cases subs <;> (rw [Snk.push, (rejects_true_iff _ _).2 ha]; rfl)

/-- The order of the levels: CRITICAL, ERROR, WARN, INFO, VERBOSE, DEBUG, TRACE, with OFF below and IGNORE above. -/
theorem C13_level_order (a b : Level) : a ≤ b ↔ severities.idxOf a ≤ severities.idxOf b := by
  cases a <;> cases b <;> decide

/-- The admission rule, spelled out over all levels: exactly CRITICAL … up to the threshold. -/
theorem C13_admits_iff (t v : Level) : Admits t v ↔
    v ∈ [.critical, .error, .warn, .info, .verbose, .debug, .trace] ∧ severities.idxOf v ≤ severities.idxOf t := by
  cases t <;> cases v <;> decide

example : Admits .verbose .info ∧ ¬ Admits .verbose .debug ∧ ¬ Admits .off .critical ∧ ¬ Admits .trace .ignore := by decide

/-! ## C14 -/

theorem eventsOf_mem {env : Nat → Env} {ti : ThreadInfo} {ml n : Nat} {ms : List Msg} {e : Event}
    (h : e ∈ eventsOf env ti ml n ms) : ∃ m ∈ ms, ∃ k, e = mkEvent (env k) ti ml m := by
  induction ms generalizing n with
  | nil => cases h
  | cons m ms ih =>
    rcases List.mem_cons.1 h with rfl | h
    · exact ⟨m, List.mem_cons_self .., n, rfl⟩
    · obtain ⟨m', hm, k, he⟩ := ih h
      exact ⟨m', List.mem_cons_of_mem _ hm, k, he⟩

theorem admitted_mem {lv : Level} {ops : List Op} {m : Msg} (h : m ∈ admitted lv ops) :
    Op.push m ∈ ops ∧ Admits lv m.level := by
  induction ops with
  | nil => cases h
  | cons op ops ih =>
    cases op with
    | push m' =>
      rw [admitted] at h
      split at h
      · rename_i ha
        rcases List.mem_cons.1 h with rfl | h
        · exact ⟨List.mem_cons_self .., ha⟩
        · exact ⟨List.mem_cons_of_mem _ (ih h).1, (ih h).2⟩
      · exact ⟨List.mem_cons_of_mem _ (ih h).1, (ih h).2⟩
    | flush => exact ⟨List.mem_cons_of_mem _ (ih h).1, (ih h).2⟩
    | asyncFlush => exact ⟨List.mem_cons_of_mem _ (ih h).1, (ih h).2⟩
    | rotate => exact ⟨List.mem_cons_of_mem _ (ih h).1, (ih h).2⟩

/-- formatting succeeded -/
def Fine (m : Msg) : Prop := ∃ t, m.fmt = .ok t

/-- **C14**, the true part: on a sink whose level admits ERROR, or if no formatting fails, every event in the queue
or written is not more detailed than the sink's level.  Missing: a failed formatting on a sink of level CRITICAL
(`C14_refuted`). -/
theorem C14_no_more_detailed_partial (cfg : Cfg) (w : World) (o : Bool) (l : Leaf) (hv : cfg.Valid)
    (ops : List Op) (n : Nat) (hr : Leaf.run (n + 2) (Leaf.new cfg w o) ops = some l)
    (hf : Level.error ≤ cfg.level ∨ ∀ m, Op.push m ∈ ops → Fine m) :
    ∀ e ∈ l.accepted, e.level ≤ cfg.level := by
  intro e he
  rw [reachable_accepted hv hr] at he
  obtain ⟨m, hm, k, rfl⟩ := eventsOf_mem he
  obtain ⟨hop, ha⟩ := admitted_mem hm
  unfold mkEvent
  cases hfm : m.fmt with
  | ok t => exact ha.2
  | error what =>
    rcases hf with hf | hf
    · exact hf
    · obtain ⟨t, ht⟩ := hf m hop
      rw [hfm] at ht; cases ht

theorem admitted_of {lv : Level} {ops : List Op} {m : Msg} (h : Op.push m ∈ ops) (ha : Admits lv m.level) : m ∈ admitted lv ops := by
  induction ops with
  | nil => cases h
  | cons op ops ih =>
    rcases List.mem_cons.1 h with rfl | h
    · rw [admitted, if_pos ha]; exact List.mem_cons_self ..
    · have := ih h
      cases op with
      | push m' => rw [admitted]; split <;> first | exact List.mem_cons_of_mem _ this | exact this
      | _ => exact this

theorem eventsOf_of {env : Nat → Env} {ti : ThreadInfo} {ml n : Nat} {ms : List Msg} {m : Msg} (h : m ∈ ms) :
    ∃ k, mkEvent (env k) ti ml m ∈ eventsOf env ti ml n ms := by
  induction ms generalizing n with
  | nil => cases h
  | cons m' ms ih =>
    rcases List.mem_cons.1 h with rfl | h
    · exact ⟨n, List.mem_cons_self ..⟩
    · obtain ⟨k, hk⟩ := ih (n := n + 1) h
      exact ⟨k, List.mem_cons_of_mem _ hk⟩

/-- **C14**, exactly: after any history of calls no stored or written event is more detailed than the sink's level if and only if the level
admits ERROR or the formatting of no message that passed the filter failed.  Missing from the full claim: the remaining histories; see
`C14_refuted`. -/
theorem C14_iff_partial (cfg : Cfg) (w : World) (o : Bool) (l : Leaf) (hv : cfg.Valid)
    (ops : List Op) (n : Nat) (hr : Leaf.run (n + 2) (Leaf.new cfg w o) ops = some l) :
    (∀ e ∈ l.accepted, e.level ≤ cfg.level) ↔
      Level.error ≤ cfg.level ∨ ∀ m, Op.push m ∈ ops → Admits cfg.level m.level → Fine m := by
  constructor
  · intro h
    rcases Classical.em (Level.error ≤ cfg.level) with he | he
    · exact .inl he
    · right
      intro m hm ha
      cases hfm : m.fmt with
      | ok t => exact ⟨t, hfm⟩
      | error what =>
        exfalso
        obtain ⟨k, hk⟩ := eventsOf_of (env := w.env) (ti := cfg.ti) (ml := cfg.maxLen) (n := 0) (admitted_of hm ha)
        rw [← reachable_accepted hv hr] at hk
        have := h _ hk
        unfold mkEvent at this
        rw [hfm] at this
        exact he this
  · intro hf e he
    rw [reachable_accepted hv hr] at he
    obtain ⟨m, hm, k, rfl⟩ := eventsOf_mem he
    obtain ⟨hop, ha⟩ := admitted_mem hm
    unfold mkEvent
    cases hfm : m.fmt with
    | ok t => exact ha.2
    | error what =>
      rcases hf with hf | hf
      · exact hf
      · obtain ⟨t, ht⟩ := hf m hop ha
        rw [hfm] at ht; cases ht

/-- A deterministic environment for examples. -/
def exampleWorld : World :=
  { lt := fun _ => ⟨24, 1, 2, 3, 4, 5⟩, env := fun _ => ⟨1700000000000000000, 1, []⟩,
    casOk := fun _ => true, openOk := fun _ => true }

/-- the default file sink of level `lv` -/
def exampleFile (lv : Level) (latency : Nat) : Cfg := Cfg.mk' .file lv .none 2048 1024 (2 ^ 22) latency

/-- a CRITICAL-only sink, two messages whose formatting fails: the first is not admitted and does no harm -/
example : ∃ l, Leaf.run 2 (Leaf.new (exampleFile .critical 1000) exampleWorld true)
    [.push ⟨[], .info, [], .error []⟩, .push ⟨[], .critical, [], .ok ['x']⟩] = some l ∧ l.accepted.length = 1 ∧
    ¬ Level.error ≤ (exampleFile .critical 1000).level := ⟨_, rfl, rfl, by decide⟩

/-- The full C14 is false: a CRITICAL-only sink stores (and will write) an event of level ERROR when formatting a
CRITICAL message fails. -/
theorem C14_refuted : ∃ (cfg : Cfg) (ops : List Op) (l : Leaf), cfg.Valid ∧
    Leaf.run 2 (Leaf.new cfg exampleWorld true) ops = some l ∧ ∃ e ∈ l.accepted, ¬ (e.level ≤ cfg.level) := by
  refine ⟨exampleFile .critical 1000, [.push ⟨[], .critical, [], .error []⟩], _, ⟨by decide, by decide⟩, rfl,
    _, List.mem_cons_self .., by decide⟩

/-! ## C17 -/

/-- **C17**.  After any history of `push`/`flush`/`async_flush`/`rotate` calls (calls made by the worker included)
on a console or file sink whose file could be opened: the accepted messages are exactly the admissible pushes in
order; and splitting their events at some point, the first part has been written -- one record per event, in order,
nothing else -- and the second part is the queue. -/
theorem C17_no_loss_no_dup_no_reorder (cfg : Cfg) (w : World) (hv : cfg.Valid) (hk : Stream cfg.kind)
    (ops : List Op) (n : Nat) :
    ∃ l, Leaf.run (n + 2) (Leaf.new cfg w true) ops = some l ∧
      ∃ done, eventsOf w.env cfg.ti cfg.maxLen 0 (admitted cfg.level ops) = done ++ l.queue ∧
        l.written.map (·.2) = done.map fun e => (l.record e).out := by
  obtain ⟨l, h1, h2, h3, h4⟩ := run_spec (l := Leaf.new cfg w true) n hv (new_ok cfg w true) ops
  obtain ⟨done, ha, hw⟩ := h2.split
  refine ⟨l, h1, done, ?_, hw (by rw [h3.cfg]; exact hk) rfl⟩
  rw [← ha, h4]; rfl

example : ∃ l, Leaf.run 2 (Leaf.new (exampleFile .info 1000) exampleWorld true)
    [.push ⟨"a".toList, .info, [], .ok "1".toList⟩, .push ⟨"a".toList, .debug, [], .ok "2".toList⟩,
     .push ⟨"a".toList, .error, [], .ok "3".toList⟩, .rotate, .flush] = some l ∧
    l.written.length = 1 ∧ l.queue.length = 1 ∧ l.gen = 1 := ⟨_, rfl, by decide +kernel, by decide +kernel, by decide +kernel⟩

/-- Why "could be opened" is needed: a file sink whose file cannot be opened loses events. -/
theorem C17_unopened_file_loses : ∃ l, Leaf.run 2 (Leaf.new (exampleFile .info 1000) exampleWorld false)
    [.push ⟨[], .info, [], .ok []⟩, .flush] = some l ∧ l.accepted.length = 1 ∧ l.written = [] ∧ l.queue = [] :=
  ⟨_, rfl, rfl, rfl, rfl⟩

/-! ## C18 -/

/-- **C18**.  In every reachable state of a sink with capacity ≥ 1 an admissible push returns after at most two
turns of its loop, hence at most one forced flush (and more allowed turns change nothing), even when the queue is
full; its event is then the last accepted one, and lies in the queue or has been taken out of it by a flush. -/
theorem C18_push_terminates_and_stores (cfg : Cfg) (w : World) (o : Bool) (l : Leaf) (hv : cfg.Valid)
    (h : Reachable cfg w o l) (m : Msg) (ha : Admits cfg.level m.level) :
    ∃ l', (∀ n, l.push (n + 2) m = some l') ∧
      l'.accepted = l.accepted ++ [mkEvent (w.env l.accepted.length) cfg.ti cfg.maxLen m] ∧
      (∃ done, l'.accepted = done ++ l'.queue) ∧ l'.queue.length ≤ cfg.capacity := by
  obtain ⟨ho, hc, hw⟩ := reachable_ok hv h
  subst hc; subst hw
  have hk : l.cfg.kind ≠ .nowhere := by intro hk; rw [hv.2 hk] at ha; exact not_admits_off _ ha
  have h1 := pushed_ok ho m hv.1 hk
  obtain ⟨done, hd, _⟩ := h1.split
  refine ⟨l.pushed m, fun n => push_admitted n hv.1 ho.cap ha, pushed_accepted l m, ⟨done, hd⟩, ?_⟩
  have := h1.cap
  rw [(pushed_same l m).cfg] at this
  exact this

/-- the full-queue case really occurs: capacity 1, latency non-zero, second push -/
example : ∃ l, Leaf.run 2 (Leaf.new (Cfg.mk' .file .info .none 1 1024 (2 ^ 22) 1000) exampleWorld true)
    [.push ⟨[], .info, [], .ok "1".toList⟩] = some l ∧ l.queue.length = 1 ∧ l.push 1 ⟨[], .info, [], .ok []⟩ = none :=
  ⟨_, rfl, rfl, rfl⟩

/-! ## C19 -/

/-- **C19** for the syslog sink and the null sink: `flush` empties the queue. -/
theorem C19_syslog_flush_drains (l : Leaf) (hk : ¬ Stream l.cfg.kind) : l.flush.queue = [] := by
  rw [flush_queue, if_neg hk]

theorem flush_written (l : Leaf) (hk : Stream l.cfg.kind) (ho : l.isOpen) :
    l.flush.written = l.written ++ (l.queue.take 1).map fun e => (l.gen, (l.record e).out) := by
  unfold Leaf.flush
  split
  · exact flushStream_written l ho
  · rw [(maybeRotate_fields _).2.2.2.1]; exact flushStream_written l ho
  · rename_i h; rw [h] at hk; exact hk.elim
  · rename_i h; rw [h] at hk; exact hk.elim

/-- **C19**, the true part for console and file sinks: a `flush` writes exactly the oldest queued event, so it
empties the queue only if at most one event was queued; as many calls as there are queued events empty it.
Missing: with two or more queued events the rest stays queued (`C19_refuted`). -/
theorem C19_flush_writes_oldest_partial (l : Leaf) (hk : Stream l.cfg.kind) (ho : l.isOpen) :
    l.flush.queue = l.queue.drop 1 ∧
    l.flush.written.map (·.2) = l.written.map (·.2) ++ (l.queue.take 1).map (fun e => (l.record e).out) ∧
    (Nat.repeat Leaf.flush l.queue.length l).queue = [] := by
  refine ⟨?_, ?_, ?_⟩
  · rw [flush_queue, if_pos hk, List.drop_one]
  · rw [flush_written l hk ho, List.map_append, List.map_map]; rfl
  · have : ∀ n, (Nat.repeat Leaf.flush n l).queue.length ≤ l.queue.length - n := by
      intro n
      induction n with
      | zero => exact Nat.le_refl _
      | succ n ih =>
        have := flush_queue_sub (Nat.repeat Leaf.flush n l)
        show (Leaf.flush (Nat.repeat Leaf.flush n l)).queue.length ≤ _
        omega
    have := this l.queue.length
    rw [Nat.sub_self] at this
    exact List.eq_nil_of_length_eq_zero (Nat.le_zero.1 this)

/-- The full C19 is false: two pushes on a default file sink, one `flush`, and one event is still queued. -/
theorem C19_refuted : ∃ l, Leaf.run 2 (Leaf.new (exampleFile .info 1000) exampleWorld true)
    [.push ⟨[], .info, [], .ok "1".toList⟩, .push ⟨[], .info, [], .ok "2".toList⟩, .flush] = some l ∧
    l.queue.length = 1 ∧ l.written.length = 1 :=
  ⟨_, rfl, rfl, rfl⟩

/-! ## C20 -/

/-- **C20**, one thread at a time: on a sink with latency 0 nothing is queued between calls, so every accepted event
has been written.  Missing: with several threads a push can return while another thread is flushing, leaving its
event queued (`C20_refuted` in `Props/SinkConc.lean`). -/
theorem C20_zero_latency_written_partial (cfg : Cfg) (w : World) (hv : cfg.Valid) (hk : Stream cfg.kind)
    (hl : cfg.latency = 0) (ops : List Op) (n : Nat) :
    ∃ l, Leaf.run (n + 2) (Leaf.new cfg w true) ops = some l ∧ l.queue = [] ∧
      l.written.map (·.2) =
        (eventsOf w.env cfg.ti cfg.maxLen 0 (admitted cfg.level ops)).map fun e => (l.record e).out := by
  obtain ⟨l, h1, h2, h3, h4⟩ := run_spec (l := Leaf.new cfg w true) n hv (new_ok cfg w true) ops
  obtain ⟨done, ha, hw⟩ := h2.split
  have hq := h2.zero (by rw [h3.cfg]; exact hl)
  refine ⟨l, h1, hq, ?_⟩
  rw [hw (by rw [h3.cfg]; exact hk) rfl]
  rw [hq, List.append_nil] at ha
  rw [← ha, h4]; rfl

example : ∃ l, Leaf.run 2 (Leaf.new (exampleFile .info 0) exampleWorld true)
    [.push ⟨"a".toList, .info, [], .ok "1".toList⟩, .push ⟨"a".toList, .error, [], .ok "3".toList⟩] = some l ∧
    l.written.length = 2 := ⟨_, rfl, by decide +kernel⟩

/-! ## C22 -/

theorem message_le (env : Env) (ti : ThreadInfo) (ml : Nat) (m : Msg) : (mkEvent env ti ml m).message.length ≤ ml := by
  unfold mkEvent
  cases m.fmt <;> simp [List.length_take] <;> omega

theorem totalLength_le {es : List Event} {ml : Nat} (h : ∀ e ∈ es, e.message.length ≤ ml) :
    totalLength es ≤ es.length * ml := by
  induction es with
  | nil => simp [totalLength]
  | cons e es ih =>
    rw [totalLength_cons, List.length_cons, Nat.succ_mul]
    have := ih fun e he => h e (List.mem_cons_of_mem _ he)
    have := h e (List.mem_cons_self ..)
    omega

/-- **C22** between calls of one thread (for interleavings see `C22_*` in `Props/SinkConc.lean`): the account is
exactly the total length of the queued messages.  `capacity * maxLen < 2^64` holds of every sink that could be
constructed, because its queue has allocated at least that many bytes. -/
theorem C22_account_exact (cfg : Cfg) (w : World) (o : Bool) (l : Leaf) (hv : cfg.Valid)
    (h : Reachable cfg w o l) (hfit : cfg.capacity * cfg.maxLen < 2 ^ 64) : l.size = totalLength l.queue := by
  have h' := h
  obtain ⟨ops, n, hr⟩ := h'
  obtain ⟨ho, hc, hw⟩ := reachable_ok hv h
  rw [ho.size]
  apply Nat.mod_eq_of_lt
  obtain ⟨done, hd, _⟩ := ho.split
  have hm : ∀ e ∈ l.queue, e.message.length ≤ cfg.maxLen := by
    intro e he
    have : e ∈ l.accepted := by rw [hd]; exact List.mem_append_right _ he
    rw [reachable_accepted hv hr] at this
    obtain ⟨m, _, k, rfl⟩ := eventsOf_mem this
    exact message_le _ _ _ _
  have h1 := totalLength_le hm
  have h2 := ho.cap
  rw [hc] at h2
  have := Nat.mul_le_mul_right cfg.maxLen h2
  show _ < 2 ^ 64
  omega

/-! ## C23 -/

theorem flush_needFlush (l : Leaf) (h : l.flush.needFlush = true) : l.needFlush = true := by
  have hs : l.flushStream.needFlush = true → l.needFlush = true := by
    unfold Leaf.flushStream
    split
    · exact id
    · dsimp only
      unfold Leaf.clearNeedFlush Leaf.write
      dsimp only
      split <;> (dsimp only; intro h; exact (Bool.and_eq_true_iff.1 h).1)
  have hm : ∀ l : Leaf, l.maybeRotate.needFlush = l.needFlush := by
    intro l
    unfold Leaf.maybeRotate
    dsimp only
    split
    · split <;> rfl
    · rfl
  unfold Leaf.flush at h
  split at h
  · exact hs h
  · rw [hm] at h; exact hs h
  · rw [(drain_fields _ _ _ _).2.2.2.2.2] at h; cases h
  · rename_i hk
    have : ∀ es (l : Leaf), (Leaf.discard es l).needFlush = l.needFlush := by
      intro es
      induction es with
      | nil => intro l; rfl
      | cons e es ih => intro l; rw [Leaf.discard, ih]
    rw [this] at h; exact h

/-- **C23**.  On a sink with non-zero latency (and a buffer of less than 2^62 bytes), an admissible push that
leaves at least 4/5 of the buffer size accounted returns with a flush requested; a push that leaves less requests
none (a request can only be pending if it was pending before). -/
theorem C23_high_water_mark (cfg : Cfg) (w : World) (o : Bool) (l : Leaf) (hv : cfg.Valid)
    (h : Reachable cfg w o l) (hl : cfg.latency ≠ 0) (hb : cfg.maxBuffer < 2 ^ 62) (m : Msg) (n : Nat)
    (ha : Admits cfg.level m.level) :
    ∃ l', l.push (n + 2) m = some l' ∧
      (cfg.maxBuffer * 4 / 5 ≤ l'.size → l'.needFlush = true) ∧
      (l'.size < cfg.maxBuffer * 4 / 5 → l'.needFlush = true → l.needFlush = true) := by
  obtain ⟨ho, hc, hw⟩ := reachable_ok hv h
  subst hc; subst hw
  have hk : l.cfg.kind ≠ .nowhere := by intro hk; rw [hv.2 hk] at ha; exact not_admits_off _ ha
  refine ⟨l.pushed m, push_admitted n hv.1 ho.cap ha, ?_⟩
  unfold Leaf.pushed
  generalize hx : (if l.queue.length < l.cfg.capacity then l else l.flush).store m = x
  have hcfg : x.cfg = l.cfg := by rw [← hx]; split <;> simp [Leaf.store, (flush_same l).cfg]
  have hflag : x.needFlush = true → l.needFlush = true := by
    rw [← hx]
    split
    · exact id
    · exact flush_needFlush l
  have hmark : x.highWater = l.cfg.maxBuffer * 4 / 5 := by
    unfold Leaf.highWater word
    rw [hcfg, Nat.mod_eq_of_lt (by omega)]
  have has : x.asyncFlush = { x with needFlush := true } := by
    unfold Leaf.asyncFlush
    split
    · rename_i hkk; rw [hcfg] at hkk; exact absurd hkk hk
    · rw [if_pos (by rw [hcfg]; exact hl)]
  unfold Leaf.afterStore
  rw [if_neg (by rw [hcfg]; exact hl), hmark]
  split
  · rename_i hle
    rw [has]
    exact ⟨fun _ => rfl, fun hlt => absurd hle (Nat.not_le.2 hlt)⟩
  · rename_i hle
    exact ⟨fun hlt => absurd hlt hle, fun _ => hflag⟩

/-- both sides of the mark occur: message limit 10, so buffer 20 and mark 16; messages of 9 bytes -/
example : ∃ a b, (Leaf.new (Cfg.mk' .file .info .none 8 10 0 1000) exampleWorld true).push 2
      ⟨[], .info, [], .ok (List.replicate 9 'x')⟩ = some a ∧ a.needFlush = false ∧
    a.push 2 ⟨[], .info, [], .ok (List.replicate 9 'x')⟩ = some b ∧ b.needFlush = true :=
  ⟨_, _, rfl, rfl, rfl, rfl⟩

/-! ## C59 -/

/-- **C59**.  Every event ever stored in a sink has a level from CRITICAL to TRACE, and looking it up in the name table and in the
colour table stays inside them; what is found in the name table is the name of the level. -/
theorem C59_levels_in_tables (cfg : Cfg) (w : World) (o : Bool) (l : Leaf) (hv : cfg.Valid)
    (h : Reachable cfg w o l) : ∀ e ∈ l.accepted,
      Level.critical ≤ e.level ∧ e.level ≤ Level.trace ∧
      (∃ name, Level.toStr? e.level = some name ∧ name.toList = Spec.levelWord e.level) ∧ ∃ color, Render.levelColor? e.level = some color := by
  obtain ⟨ops, n, hr⟩ := h
  intro e he
  rw [reachable_accepted hv hr] at he
  obtain ⟨m, hm, k, rfl⟩ := eventsOf_mem he
  obtain ⟨_, ha⟩ := admitted_mem hm
  have key : ∀ v : Level, Real v → Level.critical ≤ v ∧ v ≤ Level.trace ∧
      (∃ name, Level.toStr? v = some name ∧ name.toList = Spec.levelWord v) ∧ ∃ color, Render.levelColor? v = some color := by
    intro v hv
    cases v
    case off | ignore => exact absurd hv (by decide)
    all_goals exact ⟨by decide, by decide, ⟨_, rfl, by decide⟩, _, rfl⟩
  apply key
  unfold mkEvent
  cases m.fmt with
  | ok t => exact ha.1
  | error t => exact (show Real Level.error by decide)

/-! ## C61 -/

/-- **C61**.  In every reachable state the null sink has never stored an event, every push leaves it unchanged, and
`flush`/`async_flush`/`rotate` return at once without effect. -/
theorem C61_null_sink_stores_nothing (w : World) (o : Bool) (l : Leaf) (h : Reachable Cfg.nowhere w o l) :
    l.queue = [] ∧ l.accepted = [] ∧ l.written = [] ∧ (∀ m n, l.push n m = some l) ∧
    l.flush = l ∧ l.asyncFlush = l ∧ l.rotate = l := by
  have hv : Cfg.nowhere.Valid := ⟨by decide, fun _ => rfl⟩
  obtain ⟨ho, hc, hw⟩ := reachable_ok hv h
  have hk : l.cfg.kind = .nowhere := by rw [hc]; rfl
  have hq := ho.null hk
  have hfl : ∀ l : Leaf, l.cfg.kind = .nowhere → l.queue = [] → l.flush = l := by
    intro l hk hq; unfold Leaf.flush; rw [hk, hq]; rfl
  have has : ∀ l : Leaf, l.cfg.kind = .nowhere → l.queue = [] → l.asyncFlush = l := by
    intro l hk hq; unfold Leaf.asyncFlush; rw [hk]; exact hfl l hk hq
  have hro : ∀ l : Leaf, l.cfg.kind = .nowhere → l.queue = [] → l.rotate = l := by
    intro l hk hq; unfold Leaf.rotate; rw [hk]; exact hfl l hk hq
  have hpu : ∀ l : Leaf, l.cfg.level = .off → ∀ m n, l.push n m = some l := by
    intro l hl m n; exact push_rejected n (by rw [hl]; exact not_admits_off _)
  have hst : l = Leaf.new Cfg.nowhere w o := by
    obtain ⟨ops, n, hr⟩ := h
    have : ∀ ops, Leaf.run (n + 2) (Leaf.new Cfg.nowhere w o) ops = some (Leaf.new Cfg.nowhere w o) := by
      intro ops
      induction ops with
      | nil => rfl
      | cons op ops ih =>
        rw [Leaf.run]
        have : Leaf.step (n + 2) (Leaf.new Cfg.nowhere w o) op = some (Leaf.new Cfg.nowhere w o) := by
          cases op with
          | push m => exact hpu _ rfl m _
          | flush => exact congrArg some (hfl _ rfl rfl)
          | asyncFlush => exact congrArg some (has _ rfl rfl)
          | rotate => exact congrArg some (hro _ rfl rfl)
        rw [this]; exact ih
    rw [this] at hr
    exact (Option.some.inj hr).symm
  refine ⟨hq, ?_, ?_, hpu l (by rw [hc]; rfl), hfl l hk hq, has l hk hq, hro l hk hq⟩ <;> rw [hst] <;> rfl

/-! ## C27, one thread: a requested rotation is carried out -/

theorem flushStream_frame (l : Leaf) : l.flushStream.gen = l.gen ∧ l.flushStream.needRotate = l.needRotate ∧
    l.flushStream.openCount = l.openCount ∧ l.flushStream.w = l.w ∧ l.flushStream.cfg = l.cfg := by
  unfold Leaf.flushStream Leaf.write Leaf.clearNeedFlush
  cases ho : l.isOpen <;> (repeat' split) <;> simp_all

/-- Asking a file sink to rotate: with zero latency the file is replaced before the call returns, otherwise by the next
`flush` — if the weak compare-exchange does not fail spuriously and the file can be opened.  A file generation more
means that a new file is in use. -/
theorem C27_rotate_is_carried_out (l : Leaf) (hk : l.cfg.kind = .file) (hc : ∀ n, l.w.casOk n = true) (ho : ∀ n, l.w.openOk n = true) :
    (l.cfg.latency = 0 → l.rotate.gen = l.gen + 1 ∧ l.rotate.isOpen = true) ∧
    (l.cfg.latency ≠ 0 → l.rotate.gen = l.gen ∧ l.rotate.flush.gen = l.gen + 1 ∧ l.rotate.flush.isOpen = true) := by
  have key : ∀ l' : Leaf, l'.cfg.kind = .file → l'.w = l.w → l'.needRotate = true → l'.flush.gen = l'.gen + 1 ∧ l'.flush.isOpen = true := by
    intro l' hk' hw hn
    obtain ⟨h1, h2, h3, h4, _⟩ := flushStream_frame l'
    unfold Leaf.flush
    rw [hk']
    simp only
    unfold Leaf.maybeRotate
    simp only [h2, hn, h4, hw, hc, ho, Bool.true_and, if_true, h1, and_self]
  have hr : l.rotate = ({ l with needRotate := true } : Leaf).asyncFlush := by unfold Leaf.rotate; rw [hk]
  have ha : ({ l with needRotate := true } : Leaf).asyncFlush =
      if l.cfg.latency ≠ 0 then { l with needRotate := true, needFlush := true } else ({ l with needRotate := true } : Leaf).flush := by
    unfold Leaf.asyncFlush; simp only [hk]
  refine ⟨?_, ?_⟩
  · intro h0
    rw [hr, ha, if_neg (by simp [h0])]
    exact key _ hk rfl rfl
  · intro h0
    rw [hr, ha, if_pos h0]
    exact ⟨rfl, key _ hk rfl rfl⟩

example : ∃ l : Leaf, l.cfg.kind = .file ∧ (∀ n, l.w.casOk n = true) ∧ (∀ n, l.w.openOk n = true) ∧ l.cfg.latency ≠ 0 ∧
    l.rotate.flush.gen = 1 := by
  refine ⟨Leaf.new (exampleFile .info 1000) { exampleWorld with casOk := fun _ => true, openOk := fun _ => true } true, rfl, ?_, ?_, ?_, rfl⟩
  · intro _; rfl
  · intro _; rfl
  · show (1000 : Nat) ≠ 0; decide

end Sink
end Soralog
