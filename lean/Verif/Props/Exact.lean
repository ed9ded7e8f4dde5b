import Verif.Props.SinkTree
import Verif.Props.SinkConc
import Verif.Spec.ReachesEmpty
/-!
# C19, C21, C29, C31: exactly when they hold
-/
namespace Soralog
namespace Sink
open Spec

/-! ## C19 -/

/-- **C19**, exactly: nobody else using the sink, a `flush` leaves nothing queued if and only if the sink is not a console or
file sink or at most one event was queued; and each event that it takes out of the queue of a console or file sink that is
open it writes.  Missing: with two or more queued events the statement is false of the code. -/
theorem C19_iff_partial (cfg : Cfg) (w : World) (o : Bool) (l : Leaf) (hv : cfg.Valid) (_h : Reachable cfg w o l) :
    (l.flush.queue = [] ↔ (Stream cfg.kind → l.queue.length ≤ 1)) ∧
    (Stream cfg.kind → l.isOpen = true → l.flush.written.length + l.flush.queue.length = l.written.length + l.queue.length) := by
  obtain ⟨_, hc, _⟩ := reachable_ok hv _h
  rw [← hc]
  refine ⟨?_, fun hk ho => ?_⟩
  · rw [flush_queue]
    by_cases hk : Stream l.cfg.kind
    · rw [if_pos hk]
      constructor
      · intro he _
        cases hq : l.queue with
        | nil => exact Nat.zero_le _
        | cons a q => rw [hq, List.tail_cons] at he; rw [he]; exact Nat.le_refl _
      · intro hle
        cases hq : l.queue with
        | nil => rfl
        | cons a q =>
          have := hle hk
          rw [hq, List.length_cons] at this
          show q = []; exact List.eq_nil_of_length_eq_zero (by omega)
    · rw [if_neg hk]; exact ⟨fun _ x => absurd x hk, fun _ => rfl⟩
  · rw [flush_written l hk ho, flush_queue, if_pos hk]
    cases l.queue with
    | nil => simp
    | cons a q => simp only [List.take_succ_cons, List.take_zero, List.map_cons, List.map_nil, List.length_append, List.length_cons, List.length_nil]; show _ + 1 + q.length = _; omega

/-- both sides occur: with two events queued one is left -/
example : ∃ l, Reachable (exampleFile .info 1000) exampleWorld true l ∧ l.queue.length = 2 ∧ l.flush.queue.length = 1 :=
  ⟨_, ⟨[.push ⟨[], .info, [], .ok "1".toList⟩, .push ⟨[], .info, [], .ok "2".toList⟩], 0, rfl⟩, rfl, rfl⟩

/-! ## C21 -/

theorem afterStore_queue (l : Leaf) (hl : l.cfg.latency ≠ 0) (hk : l.cfg.kind ≠ .nowhere) : l.afterStore.queue = l.queue := by
  unfold Leaf.afterStore
  rw [if_neg hl]
  split
  · unfold Leaf.asyncFlush
    split
    · rename_i h; exact absurd h hk
    · rw [if_pos hl]
  · rfl

/-- **C21**, exactly, for a logger whose sink is a console, file or syslog sink used by one thread at a time in any way: when an
admitted log call returns nothing is queued any more -- so the record has been written -- if and only if it is a syslog sink,
nothing was queued before the call, or the queue has one place only; otherwise it is the event of this very call that is left as
the last one in the queue.  Missing: in that last case, and with other threads inside `flush`, the statement is false. -/
theorem C21_iff_partial (g : Logger) (i : Nat) (hs : g.sink = .leaf i) (h : Heap) (hh : AllReachable h) (v : Level) (format : Text)
    (fmt : FmtResult) (ha : Admits g.level v) (hi : Admits (h.leaf i).cfg.level v) (n : Nat) :
    ∃ h', g.log (n + 2) v format fmt h = some h' ∧
      ((h'.leaf i).queue = [] ↔ (Stream (h.leaf i).cfg.kind → (h.leaf i).queue = [] ∨ (h.leaf i).cfg.capacity = 1)) ∧
      ((h'.leaf i).queue ≠ [] → (h'.leaf i).queue.getLast? = some (mkEvent ((h.leaf i).w.env (h.leaf i).accepted.length)
        (h.leaf i).cfg.ti (h.leaf i).cfg.maxLen ⟨g.name, v, format, fmt⟩)) := by
  have hok := hh.ok
  obtain ⟨o, ho⟩ := hok.ok i
  have hv := hok.valid i
  have hfull : Full g.sink := by rw [hs]; trivial
  have hk : (h.leaf i).cfg.kind ≠ .nowhere := by intro hk; rw [hv.2 hk] at hi; exact not_admits_off _ hi
  refine ⟨_, log_eq n g hfull h hok v format fmt, ?_⟩
  rw [if_pos ha, hs]
  have hleaf : ((applyAll (flushCalls (.leaf i)) (applyAll (pushCalls ⟨g.name, v, format, fmt⟩ (route (.leaf i) v)) h)).leaf i) =
      ((h.leaf i).pushed ⟨g.name, v, format, fmt⟩).flush := by
    rw [applyAll_leaf, applyAll_leaf, route_leaf]
    simp only [flushCalls, pushCalls, onLeaf, List.map_cons, List.map_nil, List.foldl_cons, List.foldl_nil, if_true]
    unfold pushLeaf
    rw [if_pos hi]
  rw [hleaf]
  generalize hm : (⟨g.name, v, format, fmt⟩ : Msg) = m
  generalize hl : h.leaf i = l at ho hv hk
  clear hleaf
  -- the queue after the push
  have hsame := pushed_same l m
  have hp : l.cfg.latency ≠ 0 → Stream l.cfg.kind → (l.pushed m).queue =
      (if l.queue.length < l.cfg.capacity then l.queue else l.queue.tail) ++
        [mkEvent (l.w.env l.accepted.length) l.cfg.ti l.cfg.maxLen m] := by
    intro hlat hst
    unfold Leaf.pushed
    rw [afterStore_queue]
    · split
      · rfl
      · unfold Leaf.store
        dsimp only
        rw [flush_queue, if_pos hst, flush_accepted, (flush_same l).cfg, (flush_same l).w]
    · split
      · exact hlat
      · unfold Leaf.store; dsimp only; rw [(flush_same l).cfg]; exact hlat
    · split
      · exact hk
      · unfold Leaf.store; dsimp only; rw [(flush_same l).cfg]; exact hk
  rw [flush_queue, hsame.cfg]
  by_cases hst : Stream l.cfg.kind
  · rw [if_pos hst]
    by_cases hlat : l.cfg.latency = 0
    · have h1 := (pushed_ok ho m hv.1 hk).zero (by rw [hsame.cfg]; exact hlat)
      rw [h1]
      exact ⟨⟨fun _ _ => .inl (ho.zero hlat), fun _ => rfl⟩, fun x => absurd rfl x⟩
    · rw [hp hlat hst]
      have hcap := ho.cap
      cases hq : l.queue with
      | nil =>
        rw [if_pos (show ([] : List Event).length < _ from hv.1)]
        exact ⟨⟨fun _ _ => .inl rfl, fun _ => rfl⟩, fun x => absurd rfl x⟩
      | cons a q =>
        rw [hq] at hcap
        have hc1 := hv.1
        by_cases hlt : (a :: q).length < l.cfg.capacity
        · rw [if_pos hlt]
          refine ⟨⟨fun x => ?_, fun x => ?_⟩, fun _ => ?_⟩
          · simp at x
          · rcases x hst with y | y
            · simp at y
            · rw [y] at hlt; simp at hlt
          · rw [List.cons_append, List.tail_cons, List.getLast?_append]; simp
        · rw [if_neg hlt, List.tail_cons]
          have heq : (a :: q).length = l.cfg.capacity := by omega
          cases q with
          | nil =>
            refine ⟨⟨fun _ _ => .inr heq.symm, fun _ => rfl⟩, fun x => absurd rfl x⟩
          | cons b q =>
            refine ⟨⟨fun x => ?_, fun x => ?_⟩, fun _ => ?_⟩
            · simp at x
            · rcases x hst with y | y
              · simp at y
              · rw [y] at heq; simp at heq
            · rw [List.cons_append, List.tail_cons, List.getLast?_append]; simp
  · rw [if_neg hst]
    exact ⟨⟨fun _ x => absurd x hst, fun _ => rfl⟩, fun x => absurd rfl x⟩

/-- the hypotheses are met, with an event queued before -/
example : ∃ h : Heap, AllReachable h ∧ (h.leaf 0).queue.length = 1 ∧ (h.leaf 0).cfg.capacity ≠ 1 ∧ Stream (h.leaf 0).cfg.kind ∧
    Admits (h.leaf 0).cfg.level .info :=
  ⟨⟨fun _ => (Leaf.new (exampleFile .info 1000) exampleWorld true).pushed ⟨[], .info, [], .ok []⟩, false⟩,
    fun _ => ⟨exampleFile .info 1000, exampleWorld, true, ⟨by decide, by decide⟩, [.push ⟨[], .info, [], .ok []⟩], 0, rfl⟩,
    rfl, by decide, trivial, by decide⟩

/-! ## C31 -/

theorem set_push_ok (n : Nat) (m : Msg) (i : Nat) (h : Heap) (hh : h.Ok) :
    ∃ h', Snk.push (n + 2) m (.leaf i) h = some h' ∧ h'.Ok ∧ h'.ub = h.ub := by
  obtain ⟨o, ho⟩ := hh.ok i
  refine ⟨applyAll (pushCalls m [i]) h, ?_, applyAll_ok _ (pushCalls_good m [i]) hh, applyAll_ub _ _⟩
  rw [Snk.push, pushLeaf_eq n m (hh.valid i) ho]
  rfl

mutual
theorem push_ub (n : Nat) (m : Msg) : (s : Snk) → (h : Heap) → h.Ok → ∃ h', Snk.push (n + 2) m s h = some h' ∧ h'.Ok ∧
    (h'.ub = true ↔ h.ub = true ∨ ReachesEmpty m.level s)
  | .leaf i, h, hh => by
    obtain ⟨h', e, ho, hu⟩ := set_push_ok n m i h hh
    exact ⟨h', e, ho, by rw [hu]; exact ⟨.inl, fun x => x.elim id (fun y => nomatch y)⟩⟩
  | .multi lv [], h, hh => by
    rw [Snk.push]
    by_cases ha : Admits lv m.level
    · rw [(rejects_iff _ _).2 ha]
      exact ⟨_, rfl, ⟨hh.valid, hh.ok⟩, ⟨fun _ => .inr (.here lv ha), fun _ => rfl⟩⟩
    · rw [(rejects_true_iff _ _).2 ha]
      refine ⟨_, rfl, hh, ⟨.inl, fun x => x.elim id (fun y => ?_)⟩⟩
      cases y with
      | here _ x => exact absurd x ha
      | under _ _ x => exact absurd x ha
  | .multi lv (s :: ss), h, hh => by
    rw [Snk.push]
    by_cases ha : Admits lv m.level
    · rw [(rejects_iff _ _).2 ha]
      obtain ⟨h', e, ho, hu⟩ := pushAll_ub n m (s :: ss) h hh
      refine ⟨h', e, ho, hu.trans ⟨fun x => x.elim .inl (fun ⟨k, hk, hr⟩ => .inr (.under lv _ ha k hk hr)), fun x => x.elim .inl ?_⟩⟩
      intro y
      cases y with
      | under _ _ _ k hk hr => exact .inr ⟨k, hk, hr⟩
    · rw [(rejects_true_iff _ _).2 ha]
      refine ⟨_, rfl, hh, ⟨.inl, fun x => x.elim id (fun y => ?_)⟩⟩
      cases y with
      | under _ _ h => exact absurd h ha
theorem pushAll_ub (n : Nat) (m : Msg) : (ss : List Snk) → (h : Heap) → h.Ok → ∃ h', Snk.pushAll (n + 2) m ss h = some h' ∧ h'.Ok ∧
    (h'.ub = true ↔ h.ub = true ∨ ∃ s ∈ ss, ReachesEmpty m.level s)
  | [], h, hh => ⟨h, by rw [Snk.pushAll], hh, ⟨.inl, fun x => x.elim id (fun ⟨_, hk, _⟩ => nomatch hk)⟩⟩
  | s :: ss, h, hh => by
    obtain ⟨h1, e1, o1, u1⟩ := push_ub n m s h hh
    obtain ⟨h2, e2, o2, u2⟩ := pushAll_ub n m ss h1 o1
    refine ⟨h2, by rw [Snk.pushAll, e1]; exact e2, o2, ?_⟩
    rw [u2, u1]
    constructor
    · rintro ((x | x) | ⟨k, hk, hr⟩)
      · exact .inl x
      · exact .inr ⟨s, List.mem_cons_self .., x⟩
      · exact .inr ⟨k, List.mem_cons_of_mem _ hk, hr⟩
    · rintro (x | ⟨k, hk, hr⟩)
      · exact .inl (.inl x)
      · rcases List.mem_cons.1 hk with rfl | hk
        · exact .inl (.inr hr)
        · exact .inr ⟨k, hk, hr⟩
end

/-- **C31**, exactly: for every nesting of multisinks over sinks in any reachable states, a log call returns, and it has used a
multisink with an empty list as a queue (undefined behaviour) if and only if the level of the logger and the levels of all
multisinks on the way to one with an empty list, that one included, admit the message.  Missing: in that case the statement is
false. -/
theorem C31_iff_partial (g : Logger) (h : Heap) (hh : AllReachable h) (hu : h.ub = false) (v : Level) (format : Text) (fmt : FmtResult)
    (n : Nat) :
    ∃ h', g.log (n + 2) v format fmt h = some h' ∧ (h'.ub = true ↔ Admits g.level v ∧ ReachesEmpty v g.sink) := by
  unfold Logger.log
  by_cases hl : v ≤ g.level
  · rw [if_pos hl]
    by_cases hr : v ≠ Level.off ∧ v ≠ Level.ignore
    · rw [if_pos hr]
      obtain ⟨h', e, _, u⟩ := push_ub n ⟨g.name, v, format, fmt⟩ g.sink h hh.ok
      rw [e]
      refine ⟨_, rfl, ?_⟩
      have : (if Level.critical ≤ g.level then g.sink.flush h' else h').ub = h'.ub := by
        split
        · rw [flush_eq, applyAll_ub]
        · rfl
      rw [this, u, hu]
      exact ⟨fun x => x.elim (fun y => nomatch y) (fun y => ⟨⟨hr, hl⟩, y⟩), fun x => .inr x.2⟩
    · rw [if_neg hr]
      exact ⟨h, rfl, by rw [hu]; exact ⟨fun x => (nomatch x), fun x => absurd x.1.1 hr⟩⟩
  · rw [if_neg hl]
    exact ⟨h, rfl, by rw [hu]; exact ⟨fun x => (nomatch x), fun x => absurd x.1.2 hl⟩⟩

/-- an empty multisink below another one, reached by INFO and not by DEBUG -/
example : ReachesEmpty .info (.multi .trace [.leaf 0, .multi .info []]) ∧ ¬ ReachesEmpty .debug (.multi .trace [.leaf 0, .multi .info []]) := by
  refine ⟨.under _ _ (by decide) _ (List.mem_cons_of_mem _ (List.mem_cons_self ..)) (.here _ (by decide)), fun x => ?_⟩
  cases x with
  | under _ _ _ k hk hr =>
    rcases List.mem_cons.1 hk with rfl | hk
    · cases hr
    · rcases List.mem_cons.1 hk with rfl | hk
      · cases hr with
        | here _ x => exact absurd x (by decide)
        | under _ _ x => exact absurd x (by decide)
      · cases hk

end Sink

namespace SinkConc

/-! ## C29 -/

/-- **C29**, exactly: a thread has written its record inside `flush` of a console or file sink (whatever the others did before) and
now goes on without them up to the end of its `flush`, no exchange failing spuriously and files being openable: what has been
written so far has then left the process if and only if nothing was kept inside anyway, a flush request was pending, or (file) a
rotation was.  Missing: otherwise the statement is false. -/
theorem C29_iff_partial (c : Cfg) (s : St) (h : Reach c true s) (hk : c.isSyslog = false) (t : Tid) (k : Ret)
    (hp : s.pc t = .casFlush k) :
    ∃ n, n ≤ 4 ∧ (runN c t n s).pc t = .leave k ∧ (runN c t n s).written = s.written ∧
      ((runN c t n s).gens.flatten ++ (runN c t n s).dev = s.written.flatMap c.render ↔
        (s.sbuf = [] ∨ s.needFlush = true ∨ (c.isFile = true ∧ s.needRotate = true))) := by
  have run_reach : ∀ n (x : St), Reach c true x → Reach c true (runN c t n x) := by
    intro n
    induction n with
    | zero => intro x hx; exact hx
    | succ n ih => intro x hx; exact ih _ (.next hx (.step _ _ _))
  have main : ∀ n, n ≤ 4 → (runN c t n s).pc t = .leave k → (runN c t n s).written = s.written →
      ((runN c t n s).sbuf = [] ↔ (s.sbuf = [] ∨ s.needFlush = true ∨ (c.isFile = true ∧ s.needRotate = true))) →
      ∃ n, n ≤ 4 ∧ (runN c t n s).pc t = .leave k ∧ (runN c t n s).written = s.written ∧
      ((runN c t n s).gens.flatten ++ (runN c t n s).dev = s.written.flatMap c.render ↔
        (s.sbuf = [] ∨ s.needFlush = true ∨ (c.isFile = true ∧ s.needRotate = true))) := by
    intro n h4 h1 h2 h3
    refine ⟨n, h4, h1, h2, ?_⟩
    have hc := C24_stream_contents c true _ (run_reach n s h) hk
    rw [← h3, ← h2, ← hc]
    constructor
    · intro x
      exact List.append_cancel_left (as := (runN c t n s).gens.flatten ++ (runN c t n s).dev) (by rw [← x, List.append_nil])
    · intro x; rw [x, List.append_nil]
  by_cases hn : s.needFlush = true
  · have h1 : step c s t calmCh = setPc { s with needFlush := false } t (.sync k) := by
      unfold step; simp only [hp]; rw [hn]; rfl
    have h2 : step c (step c s t calmCh) t calmCh = setPc (setPc { s with needFlush := false, dev := s.dev ++ s.sbuf, sbuf := [] } t (.sync k)) t (.casRotate k) := by
      rw [h1]; unfold step; simp [setPc, upd]
    by_cases hr : c.isFile = true ∧ s.needRotate = true
    · refine main 4 (by omega) ?_ ?_ ?_
      all_goals (simp only [runN]; rw [h2]; unfold step; simp [setPc, upd, hr.1, hr.2, calmCh])
      all_goals simp [hn]
    · have hb : (c.isFile && s.needRotate) = false := by
        cases h5 : c.isFile <;> cases h6 : s.needRotate <;> first | rfl | exact absurd ⟨h5, h6⟩ hr
      refine main 3 (by omega) ?_ ?_ ?_
      all_goals (simp only [runN]; rw [h2]; unfold step; simp [setPc, upd, calmCh, hb])
      all_goals simp [hn]
  · have h1 : step c s t calmCh = setPc s t (.casRotate k) := by
      unfold step; simp only [hp]; simp [hn]
    by_cases hr : c.isFile = true ∧ s.needRotate = true
    · refine main 3 (by omega) ?_ ?_ ?_
      all_goals (simp only [runN]; rw [h1]; unfold step; simp [setPc, upd, hr.1, hr.2, calmCh])
    · have hb : (c.isFile && s.needRotate) = false := by
        cases h5 : c.isFile <;> cases h6 : s.needRotate <;> first | rfl | exact absurd ⟨h5, h6⟩ hr
      refine main 2 (by omega) ?_ ?_ ?_
      all_goals (simp only [runN]; rw [h1]; unfold step; simp [setPc, upd, calmCh, hb])
      intro x; exact x.elim (absurd · hn) (absurd · hr)

/-- the hypotheses are met, with a record inside the process and no request: it stays there -/
example : ∃ s, exec (exampleCfg false) [.call 1 (.push (ev ['a'])), .run 1 4, .call 1 .flush, .run 1 5] (init (exampleCfg false) true) =
    some s ∧ s.pc 1 = .casFlush .done ∧ s.sbuf ≠ [] ∧ s.needFlush = false ∧ s.needRotate = false :=
  ⟨_, rfl, rfl, by simp [exampleCfg, ev, init, startPC, runN, step, setPc, upd]; decide, rfl, rfl⟩

end SinkConc
end Soralog
