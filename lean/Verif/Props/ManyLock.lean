import Verif.Proofs.ManyLock
import Verif.Props.Many
/-!
# C98: a program cannot deadlock

`Many.Lock`: any number of threads use one logging system, its loggers and its sinks, the mutex of the logging system is taken and released as in
the code, and each sink is executed down to the atomic accesses of its queue.  `Goes S s s'`: from `s` the execution can go on to `s'` without
a call being started.
-/
namespace Soralog
namespace Many
namespace Lock
open Spec
open SinkConc (workerTid)

/-- **C98**: at any moment of any execution, all pending calls -- of the logging system, of `configure`, of loggers, of sinks, destructors of
sinks -- can be completed, if no pending call uses a destroyed sink. -/
theorem C98_all_calls_can_end (S : Setup) (hS : ∀ i, 0 < (S.leaf i).conc.capacity) (s : St) (hr : Reach S s) (hk : SinksKept S s.prog) :
    ∃ s', Goes S s s' ∧ ∀ t, t ≠ workerTid → AtRest s' t := all_end hS hr hk

/-- **C98**, log calls: a log call, a call of a sink and a destructor of a sink can be completed without the mutex changing hands, whoever else
holds it. -/
theorem C98_log_calls_need_no_mutex (S : Setup) (hS : ∀ i, 0 < (S.leaf i).conc.capacity) (s : St) (hr : Reach S s) (hk : SinksKept S s.prog)
    (t : Tid) (ht : t ≠ workerTid) (hl : s.prog.sys.pc t = .idle ∨ ∃ i, loggerOf (s.prog.sys.pc t) = some i) (hb : s.busy ≠ some t) :
    ∃ s', Goes S s s' ∧ s'.prog.sys.pc t = .idle ∧ Free s'.prog t ∧ s'.busy = s.busy ∧ s'.conf = s.conf :=
  out_of_call hS ht _ s hr hk (Nat.le_refl _) hb (.inl (hl.imp id fun ⟨i, h⟩ => by rw [h]; rfl))

/-- **C98**: the mutex changes nothing else -- every execution with it is an execution of the program without it, of which C89 and C93 speak. -/
theorem C98_is_an_execution (S : Setup) (s : St) (h : Reach S s) : Many.Reach S s.prog := reach_prog h

/-- **C98**, mutual exclusion: while a thread is inside a call of the logging system that has taken the mutex, a step of another thread that
takes it is not possible, and a thread that has taken it for `configure` keeps it until `configure` is over. -/
theorem C98_mutex_excludes (S : Setup) (s s' : St) (h : Exec S s s') :
    (∀ u v, s.busy = some u → s'.busy = some v → u = v) ∧ (∀ u v, s.conf = some u → s'.busy = some v → s.busy = none → u = v) ∧
      (∀ u v, s.conf = some u → s'.conf = some v → u = v) := by
  have key : ∀ {t : Tid} {b : Bool}, (b = true → CanLock s t) → (∀ u v, s.busy = some u → (if b then some t else s.busy) = some v → u = v) ∧
      (∀ u v, s.conf = some u → (if b then some t else s.busy) = some v → s.busy = none → u = v) := by
    intro t b hl
    cases b with
    | false =>
      refine ⟨fun u v h1 h2 => ?_, fun u v _ h2 h3 => ?_⟩
      · rw [if_neg (by simp), h1] at h2; exact Option.some.inj h2
      · rw [if_neg (by simp), h3] at h2; cases h2
    | true =>
      obtain ⟨h1, h2⟩ := hl rfl
      refine ⟨fun u v h3 _ => ?_, fun u v h3 h4 _ => ?_⟩
      · rw [h1] at h3; cases h3
      · rw [if_pos rfl] at h4
        rcases h2 with h2 | h2
        · rw [h2] at h3; cases h3
        · exact (Option.some.inj (h3.symm.trans h2)).trans (Option.some.inj h4)
  have same : ∀ {u v : Tid}, s.busy = some u → s.busy = some v → u = v := fun h1 h2 => Option.some.inj (h1.symm.trans h2)
  have samec : ∀ {u v : Tid}, s.conf = some u → s.conf = some v → u = v := fun h1 h2 => Option.some.inj (h1.symm.trans h2)
  have nob : ∀ {u v : Tid}, s.busy = some v → s.busy = none → u = v := fun h1 h2 => by rw [h2] at h1; cases h1
  cases h with
  | go hg =>
    cases hg with
    | step t ht hf hb hi hl => exact ⟨(key hl).1, (key hl).2, fun u v h1 h2 => samec h1 h2⟩
    | unlock t hf hb => exact ⟨fun u v _ h2 => (by cases h2), fun u v _ h2 _ => (by cases h2), fun u v h1 h2 => samec h1 h2⟩
    | configured t hf hi hc hb => exact ⟨fun u v h1 h2 => same h1 h2, fun u v _ h2 h3 => nob h2 h3, fun u v _ h2 => (by cases h2)⟩
    | enter => exact ⟨fun u v h1 h2 => same h1 h2, fun u v _ h2 h3 => nob h2 h3, fun u v h1 h2 => samec h1 h2⟩
    | leaf => exact ⟨fun u v h1 h2 => same h1 h2, fun u v _ h2 h3 => nob h2 h3, fun u v h1 h2 => samec h1 h2⟩
  | call t op fuel o sys' ht hf hb hi hm hl hc => exact ⟨(key hl).1, (key hl).2, fun u v h1 h2 => samec h1 h2⟩
  | configure t ht hf hi hb hc hn =>
    exact ⟨fun u v h1 h2 => same h1 h2, fun u v _ h2 h3 => nob h2 h3, fun u v h1 _ => (by rw [hc] at h1; cases h1)⟩
  | makeGroup => exact ⟨fun u v h1 h2 => same h1 h2, fun u v _ h2 h3 => nob h2 h3, fun u v h1 h2 => samec h1 h2⟩
  | log => exact ⟨fun u v h1 h2 => same h1 h2, fun u v _ h2 h3 => nob h2 h3, fun u v h1 h2 => samec h1 h2⟩
  | flush => exact ⟨fun u v h1 h2 => same h1 h2, fun u v _ h2 h3 => nob h2 h3, fun u v h1 h2 => samec h1 h2⟩
  | direct => exact ⟨fun u v h1 h2 => same h1 h2, fun u v _ h2 h3 => nob h2 h3, fun u v h1 h2 => samec h1 h2⟩
  | destroy => exact ⟨fun u v h1 h2 => same h1 h2, fun u v _ h2 h3 => nob h2 h3, fun u v h1 h2 => samec h1 h2⟩

/-! ### an execution -/

inductive LAct where
  | on (a : Many.Act)
  | unlock (t : Tid)
  | configured (t : Tid)

instance (s : St) (t : Tid) : Decidable (CanLock s t) := inferInstanceAs (Decidable (_ ∧ _))

def sysOk (s : St) : System.Conc.Act → Bool
  | .call t op => decide (s.busy ≠ some t ∧ (locks op = true → CanLock s t))
  | .configuring _ => decide (s.busy = none ∧ s.conf = none ∧ s.prog.sys.sys.configured = false)
  | .step t => decide (s.busy ≠ some t ∧ (locksAt (s.prog.sys.pc t) = true → CanLock s t))
  | .mk t _ => decide (s.busy ≠ some t)
  | .log t _ _ => decide (s.busy ≠ some t)
  | .flush t _ => decide (s.busy ≠ some t)

def sysLock (s : St) : System.Conc.Act → Option Tid × Option Tid
  | .call t op => (s.conf, if locks op then some t else s.busy)
  | .configuring t => (some t, s.busy)
  | .step t => (s.conf, if locksAt (s.prog.sys.pc t) then some t else s.busy)
  | _ => (s.conf, s.busy)

def lact (s : St) : LAct → Option St
  | .on (.sys a) => if sysOk s a then (act s.prog (.sys a)).map fun p => ⟨p, (sysLock s a).1, (sysLock s a).2⟩ else none
  | .on a => (act s.prog a).map fun p => { s with prog := p }
  | .unlock t => if t ≠ workerTid ∧ freeNow s.prog t = true ∧ s.busy = some t then some { s with busy := none } else none
  | .configured t =>
    if t ≠ workerTid ∧ freeNow s.prog t = true ∧ s.prog.sys.pc t = .idle ∧ s.conf = some t ∧ s.busy ≠ some t then some { s with conf := none } else none

theorem leafN_reach {s : St} {i : Nat} {t : Tid} {n : Nat} (h : Reach exampleSetup s) :
    Reach exampleSetup { s with prog := { s.prog with leaf := upd s.prog.leaf i (SinkFull.runN (exampleSetup.leaf i).conc t n (s.prog.leaf i)) } } := by
  induction n generalizing s with
  | zero =>
    have : upd s.prog.leaf i (s.prog.leaf i) = s.prog.leaf := SinkFull.upd_self s.prog.leaf i
    simp only [SinkFull.runN]; rw [this]; exact h
  | succ n ih =>
    have := ih (.next h (.go (.leaf s i t SinkConc.calmCh)))
    simp only [System.upd_same, System.upd_upd] at this
    exact this

theorem lact_reach {s s' : St} {a : LAct} (hr : Reach exampleSetup s) (ht : Tail s.prog) (h : lact s a = some s') : Reach exampleSetup s' ∧ Tail s'.prog := by
  cases a with
  | unlock t =>
    simp only [lact] at h; split at h <;> cases h; rename_i hc
    exact ⟨.next hr (.go (.unlock s t (freeNow_free ht hc.1 hc.2.1) hc.2.2)), ht⟩
  | configured t =>
    simp only [lact] at h; split at h <;> cases h; rename_i hc
    exact ⟨.next hr (.go (.configured s t (freeNow_free ht hc.1 hc.2.1) hc.2.2.1 hc.2.2.2.1 hc.2.2.2.2)), ht⟩
  | on a =>
    cases a with
    | sys a =>
      simp only [lact] at h; split at h
      · rename_i hok
        rw [Option.map_eq_some_iff] at h
        obtain ⟨p, hp, rfl⟩ := h
        refine ⟨?_, (act_execs ht hp).2⟩
        simp only [act] at hp
        split at hp
        · rename_i hc
          rw [Option.map_eq_some_iff] at hp
          obtain ⟨y, hy, rfl⟩ := hp
          have hf := freeNow_free ht hc.1 hc.2.2
          cases a with
          | call t op =>
            have hok := of_decide_eq_true hok
            simp only [System.Conc.act] at hy
            split at hy
            · rename_i hi
              split at hy
              · rename_i v z hs; cases hy
                exact .next hr (.call s t op 20 (.ret v) z hc.1 hf hok.1 hi.1 hi.2 hok.2 hs)
              · rename_i z hs; cases hy
                exact .next hr (.call s t op 20 .thrown z hc.1 hf hok.1 hi.1 hi.2 hok.2 hs)
              · cases hy
            · cases hy
          | configuring t =>
            have hok := of_decide_eq_true hok
            simp only [System.Conc.act] at hy; split at hy <;> cases hy
            exact .next hr (.configure s t hc.1 hf (by assumption) hok.1 hok.2.1 hok.2.2)
          | mk t a =>
            have hok := of_decide_eq_true hok
            simp only [System.Conc.act] at hy; split at hy <;> cases hy
            exact .next hr (.makeGroup s t a hc.1 hf hok (by assumption))
          | log t i r =>
            have hok := of_decide_eq_true hok
            simp only [System.Conc.act] at hy; split at hy <;> cases hy; rename_i hi
            exact .next hr (.log s t i r hc.1 hf hok hi.1 hi.2)
          | flush t i =>
            have hok := of_decide_eq_true hok
            simp only [System.Conc.act] at hy; split at hy <;> cases hy; rename_i hi
            exact .next hr (.flush s t i hc.1 hf hok hi.1 hi.2)
          | step t =>
            have hok := of_decide_eq_true hok
            simp only [System.Conc.act] at hy; split at hy <;> cases hy
            exact .next hr (.go (.step s t hc.1 hf hok.1 (by assumption) hok.2))
        · cases hp
      · cases h
    | enter t =>
      simp only [lact] at h
      rw [Option.map_eq_some_iff] at h
      obtain ⟨p, hp, rfl⟩ := h
      refine ⟨?_, (act_execs ht hp).2⟩
      have he := (act_execs ht hp).1.2 rfl
      simp only [act] at hp
      split at hp
      · cases hp
      · rename_i i q rest hd
        split at hp
        · rename_i hc
          cases hp
          have h2 := hc.2.2.1
          have hq : ∀ j, quiet ((s.prog.leaf j).pc t) := by
            intro j
            by_cases h0 : j = 0
            · rw [h0]; exact .inl hc.2.2.2.1
            · by_cases h1 : j = 1
              · rw [h1]; exact .inl hc.2.2.2.2.1
              · exact .inl (ht.file j (by omega) t hc.1)
          have hi : (s.prog.leaf i).pc t = .idle := by
            by_cases h0 : i = 0
            · rw [h0]; exact hc.2.2.2.1
            · have h1 : i = 1 := by omega
              rw [h1]; exact hc.2.2.2.2.1
          exact .next hr (.go (.enter s t i q rest _ hc.1 hd hq hi (by simpa using hc.2.2.2.2.2) (callAt_serves i q)))
        · cases hp
    | leaf i t n =>
      simp only [lact] at h
      rw [Option.map_eq_some_iff] at h
      obtain ⟨p, hp, rfl⟩ := h
      refine ⟨?_, (act_execs ht hp).2⟩
      simp only [act] at hp
      split at hp <;> cases hp
      exact leafN_reach hr
    | destroy t i =>
      simp only [lact] at h
      rw [Option.map_eq_some_iff] at h
      obtain ⟨p, hp, rfl⟩ := h
      refine ⟨?_, (act_execs ht hp).2⟩
      simp only [act] at hp
      split at hp
      · rename_i hc
        cases hp
        obtain ⟨c1, c2, c3, c4, c5, c6, c7, c8⟩ := hc
        refine .next hr (.destroy s t i c1 (freeNow_free ht c1 c4) c5 (by simpa using c6) ?_ ?_)
        · intro u hu
          by_cases hlt : u < 4
          · exact (c7 u hlt).resolve_left hu
          · exact ht.thread i u (Nat.not_lt.1 hlt)
        · intro u q hq
          by_cases hlt : u < 4
          · rw [c8 u hlt] at hq; cases hq
          · rw [ht.todo u (Nat.not_lt.1 hlt)] at hq; cases hq
      · cases hp

def lrun : List LAct → St → Option St
  | [], s => some s
  | a :: as, s => (lact s a).bind (lrun as)

theorem lrun_reach {as : List LAct} {s s' : St} (hr : Reach exampleSetup s) (ht : Tail s.prog) (h : lrun as s = some s') :
    Reach exampleSetup s' ∧ Tail s'.prog := by
  induction as generalizing s with
  | nil => cases h; exact ⟨hr, ht⟩
  | cons a as ih =>
    simp only [lrun] at h
    cases ha : lact s a with
    | none => rw [ha] at h; cases h
    | some s1 =>
      rw [ha] at h
      obtain ⟨h1, h2⟩ := lact_reach hr ht ha
      exact ih h1 h2 h

/-- Thread 1 configures: the sinks `s` and `t`, the groups `r` and `q`.  Then it makes a logger and logs; thread 2 asks for a logger in a group
that does not exist and is about to say so, inside the queue of the file, holding the mutex; thread 3 makes a group below `r` and waits for it. -/
def lockActs : List LAct :=
  [.on (.sys (.configuring 1)), .on (.sys (.call 1 (.makeSink ['s']))), .unlock 1, .on (.sys (.call 1 (.makeSink ['t']))), .unlock 1,
   .on (.sys (.mk 1 ⟨['r'], none, some ['s'], some .debug⟩)), .on (.sys (.step 1)), .unlock 1, .on (.sys (.step 1)), .on (.sys (.step 1)), .unlock 1,
   .configured 1, .on (.sys (.call 1 (.getLogger ['x'] ['r'] none none))), .unlock 1,
   .on (.sys (.call 2 (.getLogger ['y'] ['z'] none none))), .on (.enter 2), .on (.leaf 0 2 4),
   .on (.sys (.mk 3 ⟨['v'], some ['r'], none, none⟩)), .on (.sys (.log 1 0 aWarn)), .on (.sys (.step 1)), .on (.sys (.step 1)), .on (.enter 1), .on (.leaf 0 1 2)]

def lockStart : St := init exampleSetup true id

theorem lock_some : (lrun lockActs lockStart).isSome = true := by decide +kernel

def lockState : St := (lrun lockActs lockStart).get lock_some

theorem lockState_reach : Reach exampleSetup lockState ∧ Tail lockState.prog :=
  lrun_reach (.init true id fun _ => .refl _) initial_tail (Option.some_get _).symm

theorem idle_owner {c : SinkConc.Cfg} {o : Bool} (hcap : 0 < c.capacity) {f : SinkFull.St} (h : SinkFull.Reach c o f)
    (hi : ∀ t, t ≠ workerTid → f.pc t = .idle) : f.owner = none := by
  cases ho : f.owner with
  | none => rfl
  | some d =>
    obtain ⟨a, hr, hrel⟩ := SinkFull.rel_refines hcap h
    have hao : a.owner = f.owner := by obtain ⟨he, _⟩ := hrel; rw [he]; rfl
    obtain ⟨h1, h2, _⟩ := (SinkConc.roles_reach hr).owner d (hao.trans ho)
    rw [SinkFull.rel_idle hrel (hi d h1)] at h2
    cases h2

theorem lockState_owner (i : Nat) : (lockState.prog.leaf i).owner = none := by
  by_cases h0 : i = 0
  · rw [h0]; decide +kernel
  · by_cases h1 : i = 1
    · rw [h1]; decide +kernel
    · exact idle_owner (example_sound.room i) (leaf_reach (reach_prog lockState_reach.1) i) (lockState_reach.2.file i (by omega))

/-- the hypotheses of the theorems above; thread 2 holds the mutex and the lock of the queue, thread 3 waits for the mutex, thread 1 for the
lock of the queue -/
example : (∀ i, 0 < (exampleSetup.leaf i).conc.capacity) ∧ Reach exampleSetup lockState ∧ SinksKept exampleSetup lockState.prog ∧
    lockState.busy = some 2 ∧ (lockState.prog.leaf 0).ring.buf.busy = true ∧ locksAt (lockState.prog.sys.pc 3) = true ∧ ¬ CanLock lockState 3 ∧
    (∃ i, loggerOf (lockState.prog.sys.pc 1) = some i) ∧ ¬ AtRest lockState 1 ∧ ¬ AtRest lockState 2 ∧ ¬ AtRest lockState 3 := by
  refine ⟨example_sound.room, lockState_reach.1, fun t i _ => lockState_owner i, by decide +kernel, by decide +kernel, by decide +kernel, by decide +kernel,
    ⟨0, by decide +kernel⟩, fun h => ?_, fun h => ?_, fun h => ?_⟩
  · exact absurd h.1 (by decide +kernel)
  · exact absurd h.2.2.1 (by decide +kernel)
  · exact absurd h.1 (by decide +kernel)

/-- Thread 1 makes the sink `s` again, which destroys the first one: it waits for its worker, holding the mutex; thread 2 makes a group and waits. -/
def replaceActs : List LAct :=
  [.on (.sys (.configuring 1)), .on (.sys (.call 1 (.makeSink ['s']))), .unlock 1, .configured 1,
   .on (.sys (.call 1 (.makeSink ['s']))), .on (.destroy 1 0), .on (.leaf 0 1 2), .on (.sys (.mk 2 ⟨['v'], none, some ['s'], some .info⟩))]

theorem replace_some : (lrun replaceActs lockStart).isSome = true := by decide +kernel

def replaceState : St := (lrun replaceActs lockStart).get replace_some

/-- what the destructor of a replaced sink takes, up to the sink's latency (C97), all users of the logging system wait -/
example : Reach exampleSetup replaceState ∧ (replaceState.prog.leaf 0).pc 1 = .dJoin ∧ replaceState.busy = some 1 ∧
    locksAt (replaceState.prog.sys.pc 2) = true ∧ ¬ CanLock replaceState 2 := by
  have hrun : lrun replaceActs lockStart = some replaceState := (Option.some_get _).symm
  exact ⟨(lrun_reach (.init true id fun _ => .refl _) initial_tail hrun).1, by decide +kernel, by decide +kernel, by decide +kernel, by decide +kernel⟩

end Lock
end Many
end Soralog
