import Verif.Proofs.SinkFullDeliver
import Verif.Props.SinkFull
import Verif.Props.SinkConcMore
import Verif.Spec.SinkFullSkips
/-!
# C20 and C26 with the queue as it is written: how much stays behind
-/
namespace Soralog
namespace SinkFull
open SinkConc (Cfg Ret Ch Call workerTid)

theorem rel_gives_up {c : Cfg} {f : St} {a : SinkConc.St} (h : Rel c f a) (t : Tid) : GivesUp f t ↔ SinkConc.GivesUp a t := by
  have hflag : a.flag = f.flag := by rw [h.1]; rfl
  unfold GivesUp SinkConc.GivesUp
  rw [hflag]
  constructor
  · rintro ⟨h1, h2⟩
    exact ⟨rel_simple_pc h (by rw [h1]; rfl), h2⟩
  · rintro ⟨h1, h2⟩
    refine ⟨?_, h2⟩
    obtain ⟨_, base, hR⟩ := h
    have hpc := hR.pcs t
    rw [h1] at hpc
    cases hx : f.pc t <;> rw [hx] at hpc <;> first
      | (have := (hpc.of_simple rfl).2.2; cases this; rfl)
      | (have := (hpc.of_simple rfl).2.2; cases this; done)
      | (obtain ⟨_, ⟨_, h2⟩ | ⟨_, h2⟩ | ⟨_, _, _, h2, _⟩⟩ := hpc <;> cases h2; done)
      | (obtain ⟨_, r, n, _, _, h3, _⟩ := hpc; cases h3; done)
      | (obtain ⟨_, r, _, _, h3⟩ := hpc; cases h3; done)
      | (obtain ⟨_, ⟨_, h2⟩ | ⟨n, h1, h2⟩⟩ := hpc
         · cases h2
         · unfold sized at h2; split at h2 <;> cases h2)
      | (obtain ⟨_, ⟨_, h2⟩ | ⟨_, h2⟩ | ⟨_, _, _, h2⟩⟩ := hpc
         · cases h2
         · unfold SinkConc.nothing at h2; split at h2 <;> cases h2
         · unfold SinkConc.taking at h2; split at h2 <;> cases h2)

theorem ReachSkips.reach {c : Cfg} {o : Bool} {n : Nat} {f : St} (h : ReachSkips c o n f) : Reach c o f := by
  induction h with
  | init => exact .init
  | call _ t ht hi hd call ih => exact .next ih (.call _ t ht hi hd call)
  | step _ t ch _ ih => exact .next ih (.step _ t ch)
  | skip _ t ch _ ih => exact .next ih (.step _ t ch)
  | destroy _ t ht hd hi ih => exact .next ih (.destroy _ t ht hd hi)

theorem startPC_first (k : Call) : SinkConc.startPC k = SinkConc.firstPC k := by cases k <;> rfl

theorem lift_skips {c : Cfg} {o : Bool} (hcap : 0 < c.capacity) {n : Nat} {f : St} (h : ReachSkips c o n f) :
    ∃ a, SinkConc.ReachSkips c o n a ∧ Rel c f a := by
  induction h with
  | init =>
    refine ⟨SinkConc.init c o, .init, rfl, 0, Ring.inv_init hcap, rfl, rfl, fun t => ?_⟩
    refine PCR.simple_intro rfl rfl ?_
    show simple (if t = workerTid then (if c.latency0 || !o then PC.wExit else .wWait) else .idle) =
      some (if t = workerTid then (if c.latency0 || !o then SinkConc.PC.wExit else .wWait) else .idle)
    split
    · split <;> rfl
    · rfl
  | call _ t ht hi hd call ih =>
    obtain ⟨a, h1, h2⟩ := ih
    have := does_rel (d := .call t call) ⟨ht, hi, hd, rfl⟩ h2 h1.reach
    exact ⟨_, by have := SinkConc.ReachSkips.call h1 t ht (rel_idle h2 hi) (by rw [h2.1]; exact hd) call; rw [startPC_first] at this; exact this, this.1⟩
  | step _ t ch hns ih =>
    obtain ⟨a, h1, h2⟩ := ih
    refine ⟨_, ?_, rel_step h2 h1.reach t ch⟩
    split
    · exact .step h1 t ch (fun x => hns ((rel_gives_up h2 t).2 x))
    · exact h1
  | @skip n f h t ch hs ih =>
    obtain ⟨a, h1, h2⟩ := ih
    have e : shown f t ch = true := by unfold shown; rw [hs.1]
    have := rel_step h2 h1.reach t ch
    rw [e, if_pos rfl] at this
    exact ⟨_, .skip h1 t ch ((rel_gives_up h2 t).1 hs), this⟩
  | destroy _ t ht hd hi ih =>
    obtain ⟨a, h1, h2⟩ := ih
    have := does_rel (d := .destroy t) ⟨ht, hd, hi, rfl⟩ h2 h1.reach
    exact ⟨_, .destroy h1 t ht (by rw [h2.1]; exact hd) (fun u hu => rel_idle h2 (hi u hu)), this.1⟩

theorem rel_quiet {c : Cfg} {f : St} {a : SinkConc.St} (h : Rel c f a) (hq : ∀ t, t ≠ workerTid → f.pc t = .idle) :
    ∀ t, t ≠ workerTid → a.pc t = .idle := fun t ht => rel_idle h (hq t ht)

/-- every execution has its number of skipped flushes -/
theorem C20_skips_counted_real_queue (c : Cfg) (o : Bool) (f : St) : Reach c o f ↔ ∃ n, ReachSkips c o n f := by
  constructor
  · intro h
    induction h with
    | init => exact ⟨0, .init⟩
    | @next s s' h he ih =>
      obtain ⟨n, ih⟩ := ih
      cases he with
      | call t ht hi hd call => exact ⟨n, .call ih t ht hi hd call⟩
      | step t ch =>
        by_cases hs : GivesUp s t
        · exact ⟨n + 1, .skip ih t ch hs⟩
        · exact ⟨n, .step ih t ch hs⟩
      | destroy t ht hd hi => exact ⟨n, .destroy ih t ht hd hi⟩
  · rintro ⟨n, h⟩; exact h.reach

/-! ### a concrete execution: thread 1 is inside `flush` while threads 2 and 3 push; two flushes are skipped -/

def givesUpNow (s : St) (t : Tid) : Bool := match s.pc t with
  | .enter .done => s.flag
  | _ => false

theorem givesUpNow_iff (s : St) (t : Tid) : givesUpNow s t = true ↔ GivesUp s t := by
  unfold givesUpNow GivesUp
  split
  · rename_i h; simp [h]
  · rename_i h; simp only [Bool.false_eq_true, false_iff]; exact fun h' => h h'.1

def runSkips (c : Cfg) (t : Tid) : Nat → Nat × St → Nat × St
  | 0, s => s
  | n + 1, s => runSkips c t n (if givesUpNow s.2 t then s.1 + 1 else s.1, step c s.2 t SinkConc.calmCh)

def execSkips (c : Cfg) : List Act → Nat × St → Option (Nat × St)
  | [], s => some s
  | .call t call :: as, s =>
    if t ≠ workerTid ∧ s.2.pc t = .idle ∧ s.2.owner.isNone then execSkips c as (s.1, setPc s.2 t (startPC call)) else none
  | .run t n :: as, s => execSkips c as (runSkips c t n s)

theorem runSkips_reach {c : Cfg} {o : Bool} {t : Tid} {n : Nat} {s : Nat × St} (h : ReachSkips c o s.1 s.2) :
    ReachSkips c o (runSkips c t n s).1 (runSkips c t n s).2 := by
  induction n generalizing s with
  | zero => exact h
  | succ n ih =>
    rw [runSkips]
    apply ih
    by_cases hg : givesUpNow s.2 t = true
    · rw [if_pos hg]; exact .skip h t SinkConc.calmCh ((givesUpNow_iff _ _).1 hg)
    · rw [if_neg hg]; exact .step h t SinkConc.calmCh (fun hh => hg ((givesUpNow_iff _ _).2 hh))

theorem execSkips_reach {c : Cfg} {o : Bool} {as : List Act} {s s' : Nat × St} (h : ReachSkips c o s.1 s.2)
    (he : execSkips c as s = some s') : ReachSkips c o s'.1 s'.2 := by
  induction as generalizing s with
  | nil => cases he; exact h
  | cons a as ih =>
    cases a with
    | call t call =>
      rw [execSkips] at he
      split at he
      · rename_i hc
        exact ih (s := (s.1, _)) (.call h t hc.1 hc.2.1 (Option.isNone_iff_eq_none.mp hc.2.2) call) he
      · cases he
    | run t n => rw [execSkips] at he; exact ih (runSkips_reach h) he

theorem execSkips_others {c : Cfg} {as : List Act} {s s' : Nat × St} (he : execSkips c as s = some s') (u : Tid)
    (hu : ∀ a ∈ as, match a with | .call t _ => u ≠ t | .run t _ => u ≠ t) : s'.2.pc u = s.2.pc u := by
  have hrun : ∀ (t : Tid) (n : Nat) (s : Nat × St), u ≠ t → (runSkips c t n s).2.pc u = s.2.pc u := by
    intro t n
    induction n with
    | zero => intro s _; rfl
    | succ n ih =>
      intro s h
      rw [runSkips, ih _ h]
      exact Race.step_pc_other c s.2 t SinkConc.calmCh u h
  induction as generalizing s with
  | nil => cases he; rfl
  | cons a as ih =>
    cases a with
    | call t call =>
      rw [execSkips] at he
      split at he
      · rw [ih he (fun b hb => hu b (List.mem_cons_of_mem _ hb))]
        have := hu _ List.mem_cons_self
        simp only at this
        show (upd s.2.pc t _) u = _
        rw [upd, if_neg this]
      · cases he
    | run t n =>
      rw [execSkips] at he
      rw [ih he (fun b hb => hu b (List.mem_cons_of_mem _ hb))]
      exact hrun t n s (hu _ List.mem_cons_self)

def skipActs : List Act :=
  [.call 1 (.push (SinkConc.ev ['a'])), .run 1 14, .call 2 (.push (SinkConc.ev ['b'])), .run 2 30, .run 1 40]

/-- **C20**, with the queue as it is written: with zero latency, whenever all calls have returned, everything accepted has been
written, in order, except for at most as many of the newest events as calls returned from a flush that was skipped because another
thread was inside `flush`; nothing is missing if no flush was skipped.  Every execution of any number of threads
(`C20_skips_counted_real_queue`).  Missing: the statement without exception is false (`C20_refuted_real_queue`). -/
theorem C20_left_at_most_skips_real_queue_partial (c : Cfg) (hcap : 0 < c.capacity) (hl : c.latency0 = true) (n : Nat) (f : St)
    (h : ReachSkips c true n f) (hq : ∀ t, t ≠ workerTid → f.pc t = .idle) :
    ∃ rest, accepted f = f.written ++ rest ∧ rest.length ≤ n := by
  obtain ⟨a, h1, h2⟩ := lift_skips hcap h
  obtain ⟨rest, e1, e2⟩ := SinkConc.C20_left_at_most_skips_partial c a hl n h1 (rel_quiet h2 hq)
  rw [(rel_log h2).1, (rel_log h2).2] at e1
  exact ⟨rest, e1, e2⟩

theorem rel_steps {c : Cfg} {o : Bool} {f f' : St} (hs : Steps c f f') : ∀ {a : SinkConc.St}, Rel c f a → SinkConc.Reach c o a →
    ∃ a', SinkConc.Steps c a a' ∧ Rel c f' a' := by
  induction hs with
  | refl s => intro a h _; exact ⟨a, .refl a, h⟩
  | @more s s' t ch _ ih =>
    intro a h hr
    have h1 := rel_step h hr t ch
    cases e : shown s t ch
    · rw [e, if_neg (by simp)] at h1
      exact ih h1 hr
    · rw [e, if_pos rfl] at h1
      obtain ⟨a', h2, h3⟩ := ih h1 (.next hr (.step _ t ch))
      exact ⟨a', .more t ch h2, h3⟩

theorem skip_quiet {x : Nat × St} (he : execSkips (cfg2 .file true) skipActs (0, init (cfg2 .file true) true) = some x)
    (h1 : x.2.pc 1 = .idle) (h2 : x.2.pc 2 = .idle) : ∀ t, t ≠ workerTid → x.2.pc t = .idle := by
  intro t ht
  by_cases e1 : t = 1
  · rw [e1]; exact h1
  · by_cases e2 : t = 2
    · rw [e2]; exact h2
    · rw [execSkips_others he t (by
        intro a ha
        simp only [skipActs, List.mem_cons, List.not_mem_nil, or_false] at ha
        rcases ha with rfl | rfl | rfl | rfl | rfl <;> first | exact e1 | exact e2)]
      show (if t = workerTid then _ else _) = _
      rw [if_neg ht]

/-- the hypotheses are met and the bound is reached: one flush was skipped, one event stays behind -/
example : ∃ f, ReachSkips (cfg2 .file true) true 1 f ∧ (∀ t, t ≠ workerTid → f.pc t = .idle) ∧ f.owner = none ∧
    accepted f = f.written ++ [SinkConc.ev ['b']] :=
  ⟨_, execSkips_reach (s := (0, init (cfg2 .file true) true))
    (s' := (execSkips (cfg2 .file true) skipActs (0, init (cfg2 .file true) true)).get rfl) .init (Option.some_get _).symm,
    skip_quiet (Option.some_get _).symm rfl rfl, rfl, rfl⟩

/-- **C26**, zero latency, with the queue as it is written: when the destructor of a console or file sink that nobody else uses has
returned, what has been accepted has been written, in order, except for all but one of the events that were queued when it was
called; so at most one event fewer than calls returned from a skipped flush.  Missing: that nothing is lost is false
(`C26_refuted_real_queue`). -/
theorem C26_lost_at_most_skips_real_queue_partial (c : Cfg) (hcap : 0 < c.capacity) (hl : c.latency0 = true) (hk : c.isSyslog = false)
    (n : Nat) (f0 f : St) (h0 : ReachSkips c true n f0) (d : Tid) (hdw : d ≠ workerTid) (hown : f0.owner = none)
    (hidle : ∀ u, u ≠ workerTid → f0.pc u = .idle) (hs : Steps c (setPc { f0 with owner := some d } d .dStart) f)
    (hdead : f.pc d = .dead) :
    ∃ lost, accepted f = f.written ++ lost ∧ lost.length = ((accepted f0).length - f0.written.length) - 1 ∧ lost.length ≤ n - 1 := by
  obtain ⟨a0, h1, h2⟩ := lift_skips hcap h0
  have hown' : a0.owner = none := by rw [h2.1]; exact hown
  have hq := rel_quiet h2 hidle
  have hd := (does_rel (d := .destroy d) ⟨hdw, hown, hidle, rfl⟩ h2 h1.reach).1
  obtain ⟨a, e1, e2⟩ := rel_steps (o := true) hs hd (.next h1.reach (.destroy a0 d hdw hown' hq))
  have hdead' : a.pc d = .dead := rel_simple_pc e2 (by rw [hdead]; rfl)
  obtain ⟨k1, k2, lost, k3, k4⟩ := SinkConc.C26_zero_latency_lost_partial c a0 a h1.reach hl hk d hdw hown' hq e1 hdead'
  obtain ⟨lost', k5, k6⟩ := SinkConc.C26_lost_at_most_skips_partial c a0 a n h1 hl hk d hdw hown' hq e1 hdead'
  have : lost' = lost := List.append_cancel_left (k5.symm.trans k3)
  rw [this] at k6
  have k7 : (a0.put.drop a0.taken).length = a0.put.length - a0.written.length := by
    have := congrArg List.length k2
    rw [List.length_append] at this
    omega
  rw [(rel_log e2).1, (rel_log e2).2] at k3
  rw [k7, (rel_log h2).1, (rel_log h2).2] at k4
  exact ⟨lost, k3, k4, k6⟩

theorem runN_steps (c : Cfg) (t : Tid) (n : Nat) (s : St) : Steps c s (runN c t n s) := by
  induction n generalizing s with
  | zero => exact .refl s
  | succ n ih => exact .more t SinkConc.calmCh (ih _)

/-- the hypotheses are met: the destructor of the sink above runs to its end and writes the event left behind -/
example : ∃ f0 f, ReachSkips (cfg2 .file true) true 1 f0 ∧ (∀ u, u ≠ workerTid → f0.pc u = .idle) ∧ f0.owner = none ∧
    Steps (cfg2 .file true) (setPc { f0 with owner := some 1 } 1 .dStart) f ∧ f.pc 1 = .dead ∧ f.written = accepted f0 :=
  ⟨_, _, execSkips_reach (s := (0, init (cfg2 .file true) true))
    (s' := (execSkips (cfg2 .file true) skipActs (0, init (cfg2 .file true) true)).get rfl) .init (Option.some_get _).symm,
    skip_quiet (Option.some_get _).symm rfl rfl, rfl, runN_steps _ 1 30 _, rfl, rfl⟩

end SinkFull
end Soralog
