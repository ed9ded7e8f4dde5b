import Verif.Proofs.SinkFullLive
import Verif.Props.SinkFull
/-!
# C72 and C62 on the real queue: nothing is lost by treating the queue as atomic, and no call is trapped

`SinkFull.Steps c f f'`: `f'` is reached from `f` by steps of the threads alone -- no call is started.
-/
namespace Soralog
namespace SinkFull
open Spec
open SinkConc (Cfg Ret Ch Call)

/-- **C72**, converse of `C72_same_observations`: whatever the sink on an atomic queue can show to a user, the sink on the real queue can
show too.  So the counterexamples of C20, C21, C26, C29, C54 and C71 are not artefacts of the atomic queue. -/
theorem C72_every_observation_occurs (c : Cfg) (o : Bool) (hcap : 0 < c.capacity) (s : SinkConc.St) (h : SinkConc.Reach c o s) :
    ∃ f : St, Reach c o f ∧ accepted f = s.put ∧ getsOf f.ring.log = s.put.take s.taken ∧ f.written = s.written ∧
      f.gens = s.gens ∧ f.dev = s.dev ∧ f.sbuf = s.sbuf ∧ f.calls = s.calls ∧ f.size = s.size ∧ f.flag = s.flag ∧ f.owner = s.owner ∧
      (∀ t, f.pc t = .idle ↔ s.pc t = .idle) ∧ (∀ t, f.pc t = .dead ↔ s.pc t = .dead) := by
  obtain ⟨f, hf, hrel, hq⟩ := realises hcap h
  have hs := fun t => rel_simple hrel hq (t := t)
  obtain ⟨he, base, hR⟩ := hrel
  refine ⟨f, hf, hR.log.symm, ?_, ?_, ?_, ?_, ?_, ?_, ?_, ?_, ?_, fun t => ⟨fun ht => ?_, (hs t).1⟩, fun t => ⟨fun ht => ?_, (hs t).2⟩⟩
  · have h1 : s.put.take s.taken ++ s.put.drop s.taken = getsOf f.ring.log ++ s.put.drop s.taken := by
      rw [List.take_append_drop, ← Ring.legal_conserve hR.inv.legal]; exact hR.log
    exact (List.append_cancel_right h1).symm
  · rw [he]; rfl
  · rw [he]; rfl
  · rw [he]; rfl
  · rw [he]; rfl
  · rw [he]; rfl
  · rw [he]; rfl
  · rw [he]; rfl
  · rw [he]; rfl
  · have := hR.pcs t; rw [ht] at this; exact (this.of_simple rfl).2.2
  · have := hR.pcs t; rw [ht] at this; exact (this.of_simple rfl).2.2

/-- **C62** with the queue as it is written: wherever the threads are -- inside `put`, `get` or `size`, between two of their atomic
accesses, holding the spin lock or a slot -- a call of a client can be brought to its end by steps of the threads alone. -/
theorem C62_call_can_complete_real_queue (c : Cfg) (o : Bool) (hcap : 0 < c.capacity) (f : St) (h : Reach c o f) (t : Tid)
    (ht : t ≠ SinkConc.workerTid) (hown : f.owner = none) : ∃ f', Steps c f f' ∧ f'.pc t = .idle := by
  obtain ⟨f', h1, b, h2, hq, h3⟩ := lift_steps hcap h (P := fun b => b.pc t = .idle)
    (fun a ha hao => SinkConc.C62_call_can_complete c o hcap a ha t ht (hao.trans hown))
  exact ⟨f', h1, (rel_simple h2 hq).1 h3⟩

/-- **C62**, destruction, with the queue as it is written. -/
theorem C62_destructor_can_complete_real_queue (c : Cfg) (o : Bool) (hcap : 0 < c.capacity) (f : St) (h : Reach c o f) (d : Tid)
    (hd : f.owner = some d) : ∃ f', Steps c f f' ∧ f'.pc d = .dead := by
  obtain ⟨f', h1, b, h2, hq, h3⟩ := lift_steps hcap h (P := fun b => b.pc d = .dead)
    (fun a ha hao => SinkConc.C62_destructor_can_complete c o a ha d (hao.trans hd))
  exact ⟨f', h1, (rel_simple h2 hq).2 h3⟩

/-- **C62**, the lock of the queue: whoever holds it, wherever the threads are, steps of the threads alone can free it. -/
theorem C62_lock_can_be_freed_real_queue (c : Cfg) (o : Bool) (hcap : 0 < c.capacity) (f : St) (h : Reach c o f) :
    ∃ f', Steps c f f' ∧ f'.ring.buf.busy = false := by
  obtain ⟨a, hr, hrel⟩ := rel_refines hcap h
  obtain ⟨f', h1, hq⟩ := quieten hrel hr
  obtain ⟨a', _, _, base, hR⟩ := rel_refines hcap (h1.reach h)
  exact ⟨f', h1, quiet_free hR hq⟩

/-- a thread inside `put` that holds the lock of the queue, another one spinning on it -/
example : ∃ f, exec (cfg2 .file false) [.call 1 (.push (SinkConc.ev ['a'])), .run 1 4, .call 2 (.push (SinkConc.ev ['b'])), .run 2 4]
      (init (cfg2 .file false) true) = some f ∧ f.ring.buf.busy = true ∧ f.pc 1 = .putIn (SinkConc.ev ['a']) ∧
      f.pc 2 = .putIn (SinkConc.ev ['b']) ∧ f.owner = none ∧ 0 < (cfg2 .file false).capacity := ⟨_, rfl, rfl, rfl, rfl, rfl, by decide⟩

/-- **C20** refuted with the queue as it is written: two of three accepted events are still queued although every call has returned. -/
theorem C20_refuted_real_queue : ∃ (c : Cfg) (f : St), c.latency0 = true ∧ Reach c true f ∧ (∀ t, t ≠ SinkConc.workerTid → f.pc t = .idle) ∧
    (accepted f).map (·.message) = [['a'], ['b'], ['c']] ∧ f.written.map (·.message) = [['a']] := by
  obtain ⟨f, g1, g2, _, g3, _, _, _, _, _, _, _, g4, _⟩ :=
    C72_every_observation_occurs (SinkConc.exampleCfg true) true (by decide) SinkConc.raceState SinkConc.race_reach
  exact ⟨_, f, rfl, g1, fun t ht => (g4 t).2 (SinkConc.race_quiet t ht), by rw [g2]; rfl, by rw [g3]; rfl⟩

/-- **C26** refuted with the queue as it is written: the destructor has returned, the third accepted event has never been written. -/
theorem C26_refuted_real_queue : ∃ (c : Cfg) (f : St), Reach c true f ∧ f.owner = some 1 ∧ f.pc 1 = .dead ∧
    (accepted f).map (·.message) = [['a'], ['b'], ['c']] ∧ f.written.map (·.message) = [['a'], ['b']] := by
  obtain ⟨f, g1, g2, _, g3, _, _, _, _, _, _, g5, _, g4⟩ :=
    C72_every_observation_occurs (SinkConc.exampleCfg true) true (by decide) SinkConc.raceDestroyed
      (SinkConc.runN_reach (.next SinkConc.race_reach (.destroy SinkConc.raceState 1 (by decide) rfl SinkConc.race_quiet)))
  exact ⟨_, f, g1, by rw [g5]; rfl, (g4 1).2 rfl, by rw [g2]; rfl, by rw [g3]; rfl⟩

/-- **C29** refuted with the queue as it is written: thread 1 has pushed and flushed, its record is written and still inside the process. -/
theorem C29_refuted_real_queue : ∃ (c : Cfg) (f : St), Reach c true f ∧ f.pc 1 = .idle ∧ f.written.map (·.message) = [['a']] ∧
    f.dev = [] ∧ f.gens = [] := by
  exact ⟨cfg2 .file false, (exec (cfg2 .file false) [.call 1 (.push (SinkConc.ev ['a'])), .run 1 30, .call 1 .flush, .run 1 40]
    (init (cfg2 .file false) true)).get rfl, exec_reach .init (Option.some_get _).symm, rfl, rfl, rfl, rfl⟩

/-- **C21** refuted with the queue as it is written: thread 2 has logged "b" (push, then flush, both returned) while thread 1 was inside
`flush`; the record of "b" is queued and not written. -/
theorem C21_refuted_real_queue : ∃ (c : Cfg) (f : St), c.latency0 = false ∧ Reach c true f ∧ f.pc 2 = .idle ∧
    acceptedFrom 2 f = [SinkConc.ev ['b']] ∧ getsOf f.ring.log = [] ∧ f.written = [] := by
  exact ⟨cfg2 .file false, (exec (cfg2 .file false) [.call 1 (.push (SinkConc.ev ['a'])), .run 1 30, .call 1 .flush, .run 1 1,
    .call 2 (.push (SinkConc.ev ['b'])), .run 2 30, .call 2 .flush, .run 2 1] (init (cfg2 .file false) true)).get rfl, rfl,
    exec_reach .init (Option.some_get _).symm, rfl, rfl, rfl, rfl⟩

end SinkFull
end Soralog
