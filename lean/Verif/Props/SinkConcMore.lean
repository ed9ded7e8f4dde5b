import Verif.Props.SyslogConc
/-!
# C20, C27 under concurrency, continued

What zero latency guarantees when flushes do not overlap; that a rotation request is carried out.
-/
namespace Soralog
namespace SinkConc
open Spec

/-! ## C20: nothing stays behind unless a flush was skipped -/

/-- thread `t` is about to find that another thread is inside `flush` and to skip its own -/
def Skips (s : St) (t : Tid) : Prop := (∃ k, s.pc t = .enter k) ∧ s.flag = true

/-- executions in which no call of `flush` was ever skipped because another thread was inside -/
inductive ReachNoSkip (c : Cfg) (opened : Bool) : St → Prop where
  | init : ReachNoSkip c opened (init c opened)
  | call {s : St} (h : ReachNoSkip c opened s) (t : Tid) (ht : t ≠ workerTid) (hi : s.pc t = .idle) (hd : s.owner = none) (call : Call) :
      ReachNoSkip c opened (setPc s t (startPC call))
  | step {s : St} (h : ReachNoSkip c opened s) (t : Tid) (ch : Ch) (hns : ¬ Skips s t) : ReachNoSkip c opened (step c s t ch)
  | destroy {s : St} (h : ReachNoSkip c opened s) (t : Tid) (ht : t ≠ workerTid) (hd : s.owner = none)
      (hi : ∀ u, u ≠ workerTid → s.pc u = .idle) : ReachNoSkip c opened (setPc { s with owner := some t } t .dStart)

/-- the next step of thread `t` ends a call (of `push`, `flush`, `async_flush` or `rotate`) whose flush is skipped because another
thread is inside `flush` -/
def GivesUp (s : St) (t : Tid) : Prop := s.pc t = .enter .done ∧ s.flag = true

/-- executions in which `n` calls returned from a flush that was skipped because another thread was inside -/
inductive ReachSkips (c : Cfg) (opened : Bool) : Nat → St → Prop where
  | init : ReachSkips c opened 0 (init c opened)
  | call {n : Nat} {s : St} (h : ReachSkips c opened n s) (t : Tid) (ht : t ≠ workerTid) (hi : s.pc t = .idle) (hd : s.owner = none)
      (call : Call) : ReachSkips c opened n (setPc s t (startPC call))
  | step {n : Nat} {s : St} (h : ReachSkips c opened n s) (t : Tid) (ch : Ch) (hns : ¬ GivesUp s t) : ReachSkips c opened n (step c s t ch)
  | skip {n : Nat} {s : St} (h : ReachSkips c opened n s) (t : Tid) (ch : Ch) (hs : GivesUp s t) : ReachSkips c opened (n + 1) (step c s t ch)
  | destroy {n : Nat} {s : St} (h : ReachSkips c opened n s) (t : Tid) (ht : t ≠ workerTid) (hd : s.owner = none)
      (hi : ∀ u, u ≠ workerTid → s.pc u = .idle) : ReachSkips c opened n (setPc { s with owner := some t } t .dStart)

theorem exec_call {c : Cfg} {s : St} {t : Tid} (ht : t ≠ workerTid) (hi : s.pc t = .idle) (hd : s.owner = none) (call : Call) :
    Exec c s (setPc s t (startPC call)) := by
  have := Exec.call (c := c) s t ht hi hd call
  cases call <;> exact this

theorem ReachNoSkip.reach {c : Cfg} {o : Bool} {s : St} (h : ReachNoSkip c o s) : Reach c o s := by
  induction h with
  | init => exact .init
  | call _ t ht hi hd call ih => exact .next ih (exec_call ht hi hd call)
  | step _ t ch _ ih => exact .next ih (.step _ t ch)
  | destroy _ t ht hd hi ih => exact .next ih (.destroy _ t ht hd hi)

/-- the thread has put an event and not yet looked into the queue as a flusher -/
def PC.owing : PC → Bool
  | .count _ | .release _ | .decide | .enter .done | .get .done | .sCall .done _ | .sUncount .done _ | .sUnref .done _ => true
  | _ => false

/-- there are `m` different threads that are still going to flush -/
def Covered (m : Nat) (s : St) : Prop :=
  ∃ f : Nat → Tid, (∀ i, i < m → (s.pc (f i)).owing = true) ∧ ∀ i j, i < m → j < m → f i = f j → i = j

theorem Covered.frame {m : Nat} {s s' : St} (h : Covered m s) (t : Tid) (hu : ∀ u, u ≠ t → s'.pc u = s.pc u)
    (ho : (s.pc t).owing = true → (s'.pc t).owing = true) : Covered m s' := by
  obtain ⟨f, h1, h2⟩ := h
  refine ⟨f, ?_, h2⟩
  intro i hi
  by_cases h : f i = t
  · have := h1 i hi; rw [h] at this ⊢; exact ho this
  · rw [hu _ h]; exact h1 i hi

theorem Covered.mono {m m' : Nat} {s : St} (h : Covered m s) (hm : m' ≤ m) : Covered m' s := by
  obtain ⟨f, h1, h2⟩ := h
  exact ⟨f, fun i hi => h1 i (by omega), fun i j hi hj => h2 i j (by omega) (by omega)⟩

/-- one thread need not be counted any more -/
theorem Covered.drop {m : Nat} {s s' : St} (h : Covered m s) (t : Tid) (hu : ∀ u, u ≠ t → s'.pc u = s.pc u) :
    Covered (m - 1) s' := by
  obtain ⟨f, h1, h2⟩ := h
  refine ⟨fun i => if f (i + 1) = t then f 0 else f (i + 1), ?_, ?_⟩
  · intro i hi
    dsimp only
    split
    · rename_i he
      have : f 0 ≠ t := fun h0 => by
        have := h2 0 (i + 1) (by omega) (by omega) (h0.trans he.symm); omega
      rw [hu _ this]; exact h1 0 (by omega)
    · rename_i he
      rw [hu _ he]; exact h1 (i + 1) (by omega)
  · intro i j hi hj he
    dsimp only at he
    split at he <;> split at he
    · rename_i a b
      have := h2 (i + 1) (j + 1) (by omega) (by omega) (a.trans b.symm); omega
    · have := h2 0 (j + 1) (by omega) (by omega) he; omega
    · have := h2 (i + 1) 0 (by omega) (by omega) he; omega
    · have := h2 (i + 1) (j + 1) (by omega) (by omega) he; omega

/-- one thread more is going to flush -/
theorem Covered.add {m : Nat} {s s' : St} (h : Covered m s) (t : Tid) (hu : ∀ u, u ≠ t → s'.pc u = s.pc u)
    (hn : (s.pc t).owing = false) (ho : (s'.pc t).owing = true) : Covered (m + 1) s' := by
  obtain ⟨f, f1, f2⟩ := h
  have hft : ∀ i, i < m → f i ≠ t := by
    intro i hi he
    have := f1 i hi
    rw [he, hn] at this; cases this
  refine ⟨fun i => if i = m then t else f i, ?_, ?_⟩
  · intro i hi
    by_cases hiq : i = m
    · simp only [hiq, if_true]; exact ho
    · simp only [hiq, if_false]
      rw [hu _ (hft i (by omega))]; exact f1 i (by omega)
  · intro i j hi hj he
    by_cases hiq : i = m <;> by_cases hjq : j = m
    · omega
    · simp only [hiq, hjq, if_true, if_false] at he
      exact absurd he.symm (hft j (by omega))
    · simp only [hiq, hjq, if_true, if_false] at he
      exact absurd he (hft i (by omega))
    · simp only [hiq, hjq, if_false] at he
      exact f2 i j (by omega) (by omega) he

theorem Covered.empty (s : St) : Covered 0 s :=
  ⟨fun _ => 0, fun i hi => by omega, fun i j hi => by omega⟩

theorem owing_taking (c : Cfg) (k : Ret) (e : Event) : (taking c k e).owing = true → k = .done := by
  unfold taking; split <;> cases k <;> simp [PC.owing]

theorem covered_step {c : Cfg} {o : Bool} {s : St} (hr : Reach c o s) (hl : c.latency0 = true) {n : Nat} (h : Covered (s.queued - n) s)
    (t : Tid) (ch : Ch) (hns : ¬ GivesUp s t) : Covered ((step c s t ch).queued - n) (step c s t ch) := by
  have hother : ∀ u, u ≠ t → (step c s t ch).pc u = s.pc u := fun u hu => step_pc_other c s t ch u hu
  have htick := tick_reach hr
  rcases step_queue c s t ch with ⟨h1, h2, h3, h4, h5⟩ | ⟨e, hp, hq, hs⟩ | ⟨n', hp, hs⟩ | ⟨n', hp, hs⟩ |
    ⟨k, e, hp, he, hrd, hs⟩
  · have hqq : (step c s t ch).queued = s.queued := by unfold St.queued; rw [h1, h2]
    by_cases hem : s.queued = 0
    · rw [hqq, hem, Nat.zero_sub]; exact .empty _
    · rw [hqq]
      refine h.frame t hother ?_
      intro ho
      cases hp : s.pc t with
      | count n => rw [hp] at h4; cases h4
      | release n => rw [hp] at h4; cases h4
      | decide => unfold step; simp only [hp]; rw [if_pos hl]; simp [setPc, upd, PC.owing]
      | enter k =>
        rw [hp] at ho
        have hk : k = .done := by cases k <;> first | rfl | cases ho
        subst hk
        have hf : s.flag = false := by
          cases hf : s.flag with
          | false => rfl
          | true => exact absurd ⟨hp, hf⟩ hns
        unfold step; simp only [hp]; rw [if_neg (by rw [hf]; simp)]; simp [setPc, upd, PC.owing]
      | get k =>
        rw [hp] at ho
        have hk : k = .done := by cases k <;> first | rfl | cases ho
        subst hk
        have hlt : s.taken < s.put.length := by unfold St.queued at hem; omega
        have hsome : s.put[s.taken]? = some s.put[s.taken] := List.getElem?_eq_getElem hlt
        by_cases hrd : s.phase s.taken = .ready
        · exfalso
          have : (step c s t ch).taken = s.taken + 1 := by
            unfold step; simp only [hp, hsome]; rw [if_pos hrd]; rfl
          omega
        · have : step c s t ch = s := by unfold step; simp only [hp, hsome]; rw [if_neg hrd]
          rw [this, hp]; rfl
      | sCall k e =>
        rw [hp] at ho
        have hk : k = .done := by cases k <;> first | rfl | cases ho
        subst hk
        unfold step; simp only [hp]; simp [setPc, upd, PC.owing]
      | sUncount k e =>
        rw [hp] at ho
        have hk : k = .done := by cases k <;> first | rfl | cases ho
        subst hk
        unfold step; simp only [hp]; simp [setPc, upd, PC.owing]
      | sUnref k e =>
        rw [hp] at ho
        have hk : k = .done := by cases k <;> first | rfl | cases ho
        subst hk
        unfold step; simp only [hp]; simp [setPc, upd, PC.owing]
      | _ => rw [hp] at ho; cases ho
  · have hlen := htick.taken
    have hq' : (step c s t ch).queued = s.queued + 1 := by
      rw [hs]; unfold St.queued; show (s.put ++ [e]).length - s.taken = _; simp; omega
    refine (h.add t hother (by rw [hp]; rfl) (by rw [hs]; simp [setPc, upd, PC.owing])).mono (by omega)
  · have hq' : (step c s t ch).queued = s.queued := by rw [hs]; rfl
    rw [hq']
    exact h.frame t hother (fun _ => by rw [hs]; simp [setPc, upd, PC.owing])
  · have hq' : (step c s t ch).queued = s.queued := by rw [hs]; rfl
    rw [hq']
    exact h.frame t hother (fun _ => by rw [hs]; simp [setPc, upd, PC.owing])
  · refine (h.drop t hother).mono ?_
    rw [hs]; show s.put.length - (s.taken + 1) - n ≤ s.put.length - s.taken - n - 1; omega

theorem ReachSkips.reach {c : Cfg} {o : Bool} {n : Nat} {s : St} (h : ReachSkips c o n s) : Reach c o s := by
  induction h with
  | init => exact .init
  | call _ t ht hi hd call ih => exact .next ih (exec_call ht hi hd call)
  | step _ t ch _ ih => exact .next ih (.step _ t ch)
  | skip _ t ch _ ih => exact .next ih (.step _ t ch)
  | destroy _ t ht hd hi ih => exact .next ih (.destroy _ t ht hd hi)

theorem covered_reach {c : Cfg} {o : Bool} {n : Nat} {s : St} (hl : c.latency0 = true) (h : ReachSkips c o n s) :
    Covered (s.queued - n) s := by
  induction h with
  | init => exact .empty _
  | @call n s _ t ht hi hd call ih =>
    exact ih.frame t (fun u hu => by simp [setPc, upd, hu]) (fun h => by rw [hi] at h; cases h)
  | step hr t ch hns ih => exact covered_step hr.reach hl ih t ch hns
  | @skip n s hr t ch hs ih =>
    refine (ih.drop t (fun u hu => step_pc_other c s t ch u hu)).mono ?_
    have : (step c s t ch).queued = s.queued := by
      unfold step; simp only [hs.1]; rw [if_pos hs.2]; rfl
    rw [this]; omega
  | @destroy n s _ t ht hd hi ih =>
    exact ih.frame t (fun u hu => by simp [setPc, upd, hu]) (fun h => by rw [hi t ht] at h; cases h)

theorem quiet_flag {c : Cfg} {o : Bool} {s : St} (hl : c.latency0 = true) (h : Reach c o s) (hq : ∀ t, t ≠ workerTid → s.pc t = .idle) :
    s.flag = false := by
  have hw : s.pc workerTid = .wExit := (final_reach h).lat0 hl
  cases hf : s.flag with
  | false => rfl
  | true =>
    obtain ⟨t, ht⟩ := (excl_reach h).free hf
    by_cases htw : t = workerTid
    · rw [htw, hw] at ht; cases ht
    · rw [hq t htw] at ht; cases ht

/-- **C20**, how much can stay behind: with zero latency, whenever all calls have returned, everything accepted has been written, in
order, except for at most as many of the newest events as calls returned from a flush that was skipped because another thread was
inside `flush`.  For every execution of any number of threads (`C20_skips_counted`). -/
theorem C20_left_at_most_skips_partial (c : Cfg) (s : St) (hl : c.latency0 = true) (n : Nat) (h : ReachSkips c true n s)
    (hq : ∀ t, t ≠ workerTid → s.pc t = .idle) : ∃ rest, s.put = s.written ++ rest ∧ rest.length ≤ n := by
  obtain ⟨f, f1, _⟩ := covered_reach hl h
  have hw : s.pc workerTid = .wExit := (final_reach h.reach).lat0 hl
  have howing : ∀ t, (s.pc t).owing = false := by
    intro t
    by_cases ht : t = workerTid
    · rw [ht, hw]; rfl
    · rw [hq t ht]; rfl
  have hq0 : s.queued ≤ n := by
    rcases Nat.lt_or_ge 0 (s.queued - n) with h | h
    · have := f1 0 h; rw [howing] at this; cases this
    · omega
  have := (flow_reach h.reach).free (quiet_flag hl h.reach hq)
  refine ⟨s.put.drop s.taken, ?_, by rw [List.length_drop]; exact hq0⟩
  rw [← this, List.take_append_drop]

/-- every execution has its number of skipped flushes -/
theorem C20_skips_counted (c : Cfg) (o : Bool) (s : St) : Reach c o s ↔ ∃ n, ReachSkips c o n s := by
  constructor
  · intro h
    induction h with
    | init => exact ⟨0, .init⟩
    | @next s s' h he ih =>
      obtain ⟨n, ih⟩ := ih
      cases he with
      | call t ht hi hd call => exact ⟨n, by have := ReachSkips.call ih t ht hi hd call; cases call <;> exact this⟩
      | step t ch =>
        by_cases hs : GivesUp s t
        · exact ⟨n + 1, .skip ih t ch hs⟩
        · exact ⟨n, .step ih t ch hs⟩
      | destroy t ht hd hi => exact ⟨n, .destroy ih t ht hd hi⟩
  · rintro ⟨n, h⟩; exact h.reach

theorem ReachNoSkip.skips {c : Cfg} {o : Bool} {s : St} (h : ReachNoSkip c o s) : ReachSkips c o 0 s := by
  induction h with
  | init => exact .init
  | call _ t ht hi hd call ih => exact .call ih t ht hi hd call
  | step _ t ch hns ih => exact .step ih t ch (fun hs => hns ⟨⟨_, hs.1⟩, hs.2⟩)
  | destroy _ t ht hd hi ih => exact .destroy ih t ht hd hi

/-- C20, positive form: with zero latency, in any execution of any number of threads in which no call of `flush` was
skipped because another thread was inside `flush`, whenever all calls have returned everything accepted has been
written. -/
theorem C20_written_unless_skipped_partial (c : Cfg) (s : St) (hl : c.latency0 = true) (h : ReachNoSkip c true s)
    (hq : ∀ t, t ≠ workerTid → s.pc t = .idle) : s.written = s.put := by
  obtain ⟨rest, h1, h2⟩ := C20_left_at_most_skips_partial c s hl 0 h.skips hq
  have : rest = [] := List.eq_nil_of_length_eq_zero (by omega)
  rw [h1, this, List.append_nil]

/-- is the next step of `t` a skipped flush -/
def skipsNow (s : St) (t : Tid) : Bool := match s.pc t with
  | .enter _ => s.flag
  | _ => false

def runNoSkip (c : Cfg) (t : Tid) : Nat → St → Option St
  | 0, s => some s
  | n + 1, s => if skipsNow s t then none else runNoSkip c t n (step c s t calmCh)

def execNoSkip (c : Cfg) : List Act → St → Option St
  | [], s => some s
  | .call t call :: as, s =>
    if t ≠ workerTid ∧ s.pc t = .idle ∧ s.owner.isNone then execNoSkip c as (setPc s t (startPC call)) else none
  | .run t n :: as, s => match runNoSkip c t n s with
    | some s' => execNoSkip c as s'
    | none => none

theorem skipsNow_iff {s : St} {t : Tid} (h : skipsNow s t = false) : ¬ Skips s t := by
  rintro ⟨⟨k, hk⟩, hf⟩
  unfold skipsNow at h; rw [hk] at h; rw [hf] at h; cases h

theorem runNoSkip_reach {c : Cfg} {o : Bool} {t : Tid} {n : Nat} {s s' : St} (h : ReachNoSkip c o s)
    (he : runNoSkip c t n s = some s') : ReachNoSkip c o s' := by
  induction n generalizing s with
  | zero => cases he; exact h
  | succ n ih =>
    rw [runNoSkip] at he
    by_cases hs : skipsNow s t
    · rw [if_pos hs] at he; cases he
    · rw [if_neg hs] at he
      exact ih (.step h t calmCh (skipsNow_iff (by simpa using hs))) he

theorem execNoSkip_reach {c : Cfg} {o : Bool} {as : List Act} {s s' : St} (h : ReachNoSkip c o s)
    (he : execNoSkip c as s = some s') : ReachNoSkip c o s' := by
  induction as generalizing s with
  | nil => cases he; exact h
  | cons a as ih =>
    cases a with
    | call t call =>
      rw [execNoSkip] at he
      split at he
      · rename_i hc
        exact ih (.call h t hc.1 hc.2.1 (Option.isNone_iff_eq_none.mp hc.2.2) call) he
      · cases he
    | run t n =>
      rw [execNoSkip] at he
      split at he
      · rename_i s1 h1; exact ih (runNoSkip_reach h h1) he
      · cases he

/-- two threads push "a" and "b" at the same time; both records are queued before either thread flushes; the second
thread comes to its flush after the first has finished -/
def overlapping : St := (execNoSkip (exampleCfg true) [.call 1 (.push (ev ['a'])), .run 1 2, .call 2 (.push (ev ['b'])), .run 2 3,
  .run 1 20, .run 2 20] (init (exampleCfg true) true)).get rfl

example : ReachNoSkip (exampleCfg true) true overlapping ∧ overlapping.pc 1 = .idle ∧ overlapping.pc 2 = .idle ∧
    overlapping.written.map (·.message) = [['a'], ['b']] :=
  ⟨execNoSkip_reach .init (Option.some_get _).symm, rfl, rfl, rfl⟩

/-- does the next step of `t` end a call whose flush is skipped -/
def givesUpNow (s : St) (t : Tid) : Bool := match s.pc t with
  | .enter .done => s.flag
  | _ => false

theorem givesUpNow_iff (s : St) (t : Tid) : givesUpNow s t = true ↔ GivesUp s t := by
  unfold givesUpNow GivesUp
  split
  · rename_i h; simp [h]
  · rename_i h; simp only [Bool.false_eq_true, false_iff]; exact fun h' => h h'.1

def runSkips (c : Cfg) (t : Tid) : Nat → Nat × St → Nat × St
  | 0, s => s
  | n + 1, s => runSkips c t n (if givesUpNow s.2 t then s.1 + 1 else s.1, step c s.2 t calmCh)

def execSkips (c : Cfg) : List Act → Nat × St → Option (Nat × St)
  | [], s => some s
  | .call t call :: as, s =>
    if t ≠ workerTid ∧ s.2.pc t = .idle ∧ s.2.owner.isNone then execSkips c as (s.1, setPc s.2 t (startPC call)) else none
  | .run t n :: as, s => execSkips c as (runSkips c t n s)

theorem runSkips_reach {c : Cfg} {o : Bool} {t : Tid} {n : Nat} {s : Nat × St} (h : ReachSkips c o s.1 s.2) :
    ReachSkips c o (runSkips c t n s).1 (runSkips c t n s).2 := by
  induction n generalizing s with
  | zero => exact h
  | succ n ih =>
    rw [runSkips]
    apply ih
    by_cases hg : givesUpNow s.2 t = true
    · rw [if_pos hg]; exact .skip h t calmCh ((givesUpNow_iff _ _).1 hg)
    · rw [if_neg hg]; exact .step h t calmCh (fun hh => hg ((givesUpNow_iff _ _).2 hh))

theorem execSkips_reach {c : Cfg} {o : Bool} {as : List Act} {s s' : Nat × St} (h : ReachSkips c o s.1 s.2)
    (he : execSkips c as s = some s') : ReachSkips c o s'.1 s'.2 := by
  induction as generalizing s with
  | nil => cases he; exact h
  | cons a as ih =>
    cases a with
    | call t call =>
      rw [execSkips] at he
      split at he
      · rename_i hc
        exact ih (s := (s.1, _)) (.call h t hc.1 hc.2.1 (Option.isNone_iff_eq_none.mp hc.2.2) call) he
      · cases he
    | run t n => rw [execSkips] at he; exact ih (runSkips_reach h) he

/-- in the race of `C20_refuted` two flushes were skipped, and two events stay behind: the bound is reached -/
example : ∃ s, ReachSkips (exampleCfg true) true 2 s ∧ s.put = s.written ++ [ev ['b'], ev ['c']] ∧ s.pc 1 = .idle ∧ s.pc 2 = .idle ∧
    s.pc 3 = .idle :=
  ⟨_, execSkips_reach (s := (0, init (exampleCfg true) true)) (s' := (execSkips (exampleCfg true) raceActs (0, init (exampleCfg true) true)).get rfl)
    .init (Option.some_get _).symm, rfl, rfl, rfl, rfl⟩

/-! ## C26: what the destructor of a sink with latency 0 leaves behind -/

/-- the destructor's flush has looked into the queue -/
def PC.looked : PC → Bool
  | .uncount .destroy _ | .unref .destroy _ | .write .destroy _ | .casFlush .destroy | .sync .destroy | .casRotate .destroy
  | .reopen .destroy | .leave .destroy | .dEnd | .dead => true
  | _ => false

theorem looked_step {c : Cfg} {s : St} {t : Tid} (h : (s.pc t).looked = true) (ch : Ch) :
    (step c s t ch).put = s.put ∧ (step c s t ch).taken = s.taken ∧ ((step c s t ch).pc t).looked = true := by
  cases hp : s.pc t with
  | write k e =>
    rw [hp] at h
    have hk : k = .destroy := by cases k <;> first | rfl | cases h
    subst hk
    cases e with
    | none => unfold step; simp only [hp]; exact ⟨rfl, rfl, by simp [setPc, upd, PC.looked]⟩
    | some e =>
      unfold step; simp only [hp]
      split <;> exact ⟨rfl, rfl, by simp [setPc, upd, PC.looked]⟩
  | uncount k e =>
    rw [hp] at h
    have hk : k = .destroy := by cases k <;> first | rfl | cases h
    subst hk
    unfold step; simp only [hp]; exact ⟨rfl, rfl, by simp [setPc, upd, PC.looked]⟩
  | unref k e =>
    rw [hp] at h
    have hk : k = .destroy := by cases k <;> first | rfl | cases h
    subst hk
    unfold step; simp only [hp]; exact ⟨rfl, rfl, by simp [setPc, upd, PC.looked]⟩
  | casFlush k =>
    rw [hp] at h
    have hk : k = .destroy := by cases k <;> first | rfl | cases h
    subst hk
    unfold step; simp only [hp]; split <;> exact ⟨rfl, rfl, by simp [setPc, upd, PC.looked]⟩
  | sync k =>
    rw [hp] at h
    have hk : k = .destroy := by cases k <;> first | rfl | cases h
    subst hk
    unfold step; simp only [hp]; exact ⟨rfl, rfl, by simp [setPc, upd, PC.looked]⟩
  | casRotate k =>
    rw [hp] at h
    have hk : k = .destroy := by cases k <;> first | rfl | cases h
    subst hk
    unfold step; simp only [hp]; split <;> exact ⟨rfl, rfl, by simp [setPc, upd, PC.looked]⟩
  | reopen k =>
    rw [hp] at h
    have hk : k = .destroy := by cases k <;> first | rfl | cases h
    subst hk
    unfold step; simp only [hp]; split <;> exact ⟨rfl, rfl, by simp [setPc, upd, PC.looked]⟩
  | leave k =>
    rw [hp] at h
    have hk : k = .destroy := by cases k <;> first | rfl | cases h
    subst hk
    unfold step; simp only [hp]; exact ⟨rfl, rfl, by simp [setPc, upd, PC.looked, afterFlush]⟩
  | dEnd => unfold step; simp only [hp]; split <;> exact ⟨rfl, rfl, by simp [setPc, upd, PC.looked]⟩
  | dead => unfold step; simp only [hp]; exact ⟨trivial, trivial, rfl⟩
  | _ => rw [hp] at h; cases h

/-- **C26**, latency 0, console and file sinks, exactly what is lost: the destructor writes the oldest of the queued events and no
other; so all but one of the events that are queued when the destructor is called are never written, and these are the newest ones. -/
theorem C26_zero_latency_lost_partial (c : Cfg) (s0 s : St) (h0 : Reach c true s0) (hl : c.latency0 = true) (hk : c.isSyslog = false)
    (d : Tid) (hdw : d ≠ workerTid) (hown : s0.owner = none) (hidle : ∀ u, u ≠ workerTid → s0.pc u = .idle)
    (hs : Steps c (setPc { s0 with owner := some d } d .dStart) s) (hdead : s.pc d = .dead) :
    s.put = s0.put ∧ s0.put = s0.written ++ s0.put.drop s0.taken ∧
      ∃ lost, s.put = s.written ++ lost ∧ lost.length = (s0.put.drop s0.taken).length - 1 := by
  have hr1 : Reach c true (setPc { s0 with owner := some d } d .dStart) := .next h0 (.destroy s0 d hdw hown hidle)
  have hf0 : s0.flag = false := quiet_flag hl h0 hidle
  have key : ∀ {a s : St}, Steps c a s → Reach c true a → a.owner = some d → a.put = s0.put →
      ((a.taken = s0.taken ∧ (a.pc d = .dStart ∨ a.pc d = .enter .destroy ∨ a.pc d = .get .destroy) ∧
        (a.pc d ≠ .get .destroy → a.flag = false)) ∨
        ((a.pc d).looked = true ∧ a.put.length - a.taken = s0.put.length - s0.taken - 1)) → s.pc d = .dead →
      s.put = s0.put ∧ ∃ lost, s.put = s.written ++ lost ∧ lost.length = s0.put.length - s0.taken - 1 := by
    intro a s hst
    induction hst with
    | refl a =>
      intro hr ho hp hor hdead
      have hq : a.put.length - a.taken = s0.put.length - s0.taken - 1 := by
        rcases hor with ⟨_, h2, _⟩ | ⟨_, h⟩
        · rw [hdead] at h2; rcases h2 with h2 | h2 | h2 <;> cases h2
        · exact h
      have hnb : ∀ t, (a.pc t).inBody = false := by
        intro t
        obtain ⟨o1, o2, o3⟩ := (roles_reach hr).owner d ho
        by_cases htw : t = workerTid
        · subst htw; rw [(final_reach hr).lat0 hl]; rfl
        · by_cases htd : t = d
          · subst htd; rw [hdead]; rfl
          · rw [o3 t htw htd]; rfl
      have hf : a.flag = false := by
        cases hf : a.flag with
        | false => rfl
        | true => obtain ⟨t, ht⟩ := (excl_reach hr).free hf; rw [hnb t] at ht; cases ht
      refine ⟨hp, a.put.drop a.taken, ?_, by rw [List.length_drop]; exact hq⟩
      rw [← (flow_reach hr).free hf, List.take_append_drop]
    | @more a s t ch hst ih =>
      intro hr ho hput hor
      have hr' := Reach.next hr (Exec.step a t ch)
      obtain ⟨o1, o2, o3⟩ := (roles_reach hr).owner d ho
      by_cases htd : t = d
      · subst htd
        rcases hor with ⟨h1, h2 | h2 | h2, h3⟩ | ⟨h1, h2⟩
        · have e : step c a t ch = setPc a t (.enter .destroy) := by unfold step; simp only [h2, hl, if_true]
          refine ih hr' (by rw [step_owner]; exact ho) (by rw [e]; exact hput) ?_
          left
          rw [e]
          exact ⟨h1, Or.inr (Or.inl (by simp [setPc, upd])), fun _ => h3 (by rw [h2]; simp)⟩
        · have hf := h3 (by rw [h2]; simp)
          have e : step c a t ch = setPc { a with flag := true, run := [] } t (.get .destroy) := by
            unfold step; simp only [h2, hf]; rfl
          refine ih hr' (by rw [step_owner]; exact ho) (by rw [e]; exact hput) ?_
          left
          rw [e]
          refine ⟨h1, Or.inr (Or.inr (by simp [setPc, upd])), fun hne => ?_⟩
          exact absurd (by simp [setPc, upd]) hne
        · cases hn : a.put[a.taken]? with
          | none =>
            have e : step c a t ch = setPc a t (.write .destroy none) := by
              unfold step; simp only [h2, hn]; unfold nothing; rw [if_neg (by rw [hk]; simp)]
            refine ih hr' (by rw [step_owner]; exact ho) (by rw [e]; exact hput) ?_
            right
            rw [e]
            refine ⟨by simp [setPc, upd, PC.looked], ?_⟩
            have := List.getElem?_eq_none_iff.1 hn
            show a.put.length - a.taken = _
            rw [hput, h1] at this ⊢
            omega
          | some e =>
            have hlt := (List.getElem?_eq_some_iff.1 hn).1
            by_cases hrd : a.phase a.taken = .ready
            · have e : step c a t ch = setPc { a with taken := a.taken + 1, held := true } t (.uncount .destroy e) := by
                unfold step; simp only [h2, hn]; rw [if_pos hrd]; unfold taking; rw [if_neg (by rw [hk]; simp)]
              refine ih hr' (by rw [step_owner]; exact ho) (by rw [e]; exact hput) ?_
              right
              rw [e]
              refine ⟨by simp [setPc, upd, PC.looked], ?_⟩
              show a.put.length - (a.taken + 1) = _
              rw [hput, h1]; omega
            · have e : step c a t ch = a := by unfold step; simp only [h2, hn]; rw [if_neg hrd]
              exact ih hr' (by rw [step_owner]; exact ho) (by rw [e]; exact hput) (by rw [e]; exact .inl ⟨h1, .inr (.inr h2), h3⟩)
        · obtain ⟨q1, q2, q3⟩ := looked_step (c := c) h1 ch
          refine ih hr' (by rw [step_owner]; exact ho) (by rw [q1]; exact hput) (.inr ⟨q3, ?_⟩)
          rw [q1, q2]; exact h2
      · have : step c a t ch = a := by
          by_cases htw : t = workerTid
          · subst htw; exact role_wExit_step c a _ ch ((final_reach hr).lat0 hl)
          · unfold step; rw [o3 t htw htd]
        rw [this] at ih
        exact ih hr ho hput hor
  obtain ⟨k1, k2⟩ := key hs hr1 rfl rfl (.inl ⟨rfl, .inl (by simp [setPc, upd]), fun _ => hf0⟩) hdead
  refine ⟨k1, ?_, by rw [List.length_drop]; exact k2⟩
  rw [← (flow_reach h0).free hf0, List.take_append_drop]

/-- three events accepted, two queued when the destructor is called, one of them lost -/
example : Reach (exampleCfg true) true raceState ∧ raceState.owner = none ∧ (∀ u, u ≠ workerTid → raceState.pc u = .idle) ∧
    (raceState.put.drop raceState.taken).length = 2 ∧ raceDestroyed.pc 1 = .dead ∧
    raceDestroyed.put = raceDestroyed.written ++ [ev ['c']] := ⟨race_reach, rfl, race_quiet, rfl, rfl, rfl⟩

/-- **C26**, latency 0: no more is lost than calls returned from a skipped flush, less one. -/
theorem C26_lost_at_most_skips_partial (c : Cfg) (s0 s : St) (n : Nat) (h0 : ReachSkips c true n s0) (hl : c.latency0 = true)
    (hk : c.isSyslog = false) (d : Tid) (hdw : d ≠ workerTid) (hown : s0.owner = none) (hidle : ∀ u, u ≠ workerTid → s0.pc u = .idle)
    (hs : Steps c (setPc { s0 with owner := some d } d .dStart) s) (hdead : s.pc d = .dead) :
    ∃ lost, s.put = s.written ++ lost ∧ lost.length ≤ n - 1 := by
  obtain ⟨h1, h2, lost, h3, h4⟩ := C26_zero_latency_lost_partial c s0 s h0.reach hl hk d hdw hown hidle hs hdead
  obtain ⟨rest, h5, h6⟩ := C20_left_at_most_skips_partial c s0 hl n h0 hidle
  have : s0.put.drop s0.taken = rest := List.append_cancel_left (h2.symm.trans h5)
  exact ⟨lost, h3, by rw [h4, this]; omega⟩

/-! ## C24: a push that has returned is accepted, once -/

/-- Thread `t` calls `push(e)` in the state `s0`; `own` is what its own steps have put into the queue since, while other threads do
whatever they may. -/
inductive Pushing (c : Cfg) (t : Tid) (e : Event) (s0 : St) : List Event → St → Prop where
  | call : Pushing c t e s0 [] (setPc s0 t (startPC (.push e)))
  | own {l : List Event} {s : St} (h : Pushing c t e s0 l s) (hin : s.pc t ≠ .idle) (ch : Ch) :
      Pushing c t e s0 (l ++ (step c s t ch).put.drop s.put.length) (step c s t ch)
  | other {l : List Event} {s : St} (h : Pushing c t e s0 l s) (u : Tid) (hu : u ≠ t) (ch : Ch) : Pushing c t e s0 l (step c s u ch)
  | calls {l : List Event} {s : St} (h : Pushing c t e s0 l s) (u : Tid) (hu : u ≠ t) (hw : u ≠ workerTid) (hi : s.pc u = .idle)
      (call : Call) : Pushing c t e s0 l (setPc s u (startPC call))

/-- what a thread inside `push` still has to put -/
def PC.toPut : PC → List Event
  | .put e | .enter (.retry e) | .get (.retry e) | .uncount (.retry e) _ | .unref (.retry e) _ | .write (.retry e) _
  | .casFlush (.retry e) | .sync (.retry e) | .casRotate (.retry e) | .reopen (.retry e) | .leave (.retry e)
  | .sCall (.retry e) _ | .sUncount (.retry e) _ | .sUnref (.retry e) _ | .sClear (.retry e) => [e]
  | _ => []

theorem toPut_afterFlush (k : Ret) : (afterFlush k).toPut = (PC.leave k).toPut := by cases k <;> rfl
theorem toPut_nothing (c : Cfg) (k : Ret) : (nothing c k).toPut = (PC.leave k).toPut := by unfold nothing; split <;> cases k <;> rfl
theorem toPut_taking (c : Cfg) (k : Ret) (e : Event) : (taking c k e).toPut = (PC.leave k).toPut := by
  unfold taking; split <;> cases k <;> rfl

theorem toPut_step (c : Cfg) (s : St) (t : Tid) (ch : Ch) :
    (step c s t ch).put.drop s.put.length ++ ((step c s t ch).pc t).toPut = (s.pc t).toPut := by
  have key : ∀ s' : St, s'.put = s.put → (s'.pc t).toPut = (s.pc t).toPut →
      s'.put.drop s.put.length ++ (s'.pc t).toPut = (s.pc t).toPut := by
    intro s' h1 h2; rw [h1, h2]; simp
  cases hp : s.pc t with
  | put e =>
    unfold step; simp only [hp]
    split
    · simp [setPc, upd, PC.toPut]
    · split
      · rw [hp]; simp
      · simp [setPc, upd, PC.toPut]
  | write k e =>
    rw [← hp]; apply key <;> (unfold step; simp only [hp])
    · cases e <;> dsimp only <;> (try split) <;> rfl
    · cases e <;> dsimp only <;> (try split) <;> cases k <;> simp [setPc, upd, PC.toPut]
  | enter k =>
    rw [← hp]; apply key <;> (unfold step; simp only [hp]) <;> split <;>
      first | rfl | (simp only [setPc, upd, if_true, toPut_afterFlush]; cases k <;> rfl)
  | leave k =>
    rw [← hp]; apply key <;> (unfold step; simp only [hp])
    · rfl
    · simp only [setPc, upd, if_true, toPut_afterFlush]
  | get k =>
    rw [← hp]; apply key <;> (unfold step; simp only [hp])
    · repeat' split
      all_goals rfl
    · repeat' split
      · simp only [setPc, upd, if_true, toPut_nothing]; cases k <;> rfl
      · simp only [setPc, upd, if_true, toPut_taking]; cases k <;> rfl
      · rw [hp]
  | uncount k e => rw [← hp]; apply key <;> (unfold step; simp only [hp]) <;> cases k <;> simp [setPc, upd, PC.toPut]
  | unref k e => rw [← hp]; apply key <;> (unfold step; simp only [hp]) <;> cases k <;> simp [setPc, upd, PC.toPut]
  | casFlush k => rw [← hp]; apply key <;> (unfold step; simp only [hp]) <;> split <;> cases k <;> simp [setPc, upd, PC.toPut]
  | sync k => rw [← hp]; apply key <;> (unfold step; simp only [hp]) <;> cases k <;> simp [setPc, upd, PC.toPut]
  | casRotate k => rw [← hp]; apply key <;> (unfold step; simp only [hp]) <;> split <;> cases k <;> simp [setPc, upd, PC.toPut]
  | reopen k => rw [← hp]; apply key <;> (unfold step; simp only [hp]) <;> split <;> cases k <;> simp [setPc, upd, PC.toPut]
  | sCall k e => rw [← hp]; apply key <;> (unfold step; simp only [hp]) <;> cases k <;> simp [setPc, upd, PC.toPut]
  | sUncount k e => rw [← hp]; apply key <;> (unfold step; simp only [hp]) <;> cases k <;> simp [setPc, upd, PC.toPut]
  | sUnref k e => rw [← hp]; apply key <;> (unfold step; simp only [hp]) <;> cases k <;> simp [setPc, upd, PC.toPut]
  | sClear k => rw [← hp]; apply key <;> (unfold step; simp only [hp]) <;> cases k <;> simp [setPc, upd, PC.toPut]
  | idle => rw [← hp]; apply key <;> (unfold step; simp only [hp])
  | count n => rw [← hp]; apply key <;> (unfold step; simp only [hp]) <;> simp [setPc, upd, PC.toPut]
  | release n => rw [← hp]; apply key <;> (unfold step; simp only [hp]) <;> simp [setPc, upd, PC.toPut]
  | _ =>
    rw [← hp]; apply key <;> (unfold step; simp only [hp]) <;> (repeat' split) <;>
      first | rfl | (simp [setPc, upd, PC.toPut]; done) | simp [setPc, upd, PC.toPut, hp]

/-- **C24**, nothing pushed is lost or doubled: when a call of `push(e)` has returned -- whatever the other threads and the worker did
meanwhile, however often the queue was full -- this thread has put `e` into the queue, once, and nothing else. -/
theorem C24_push_accepts_once (c : Cfg) (t : Tid) (e : Event) (s0 s : St) (own : List Event) (h : Pushing c t e s0 own s)
    (hret : s.pc t = .idle) : own = [e] := by
  have key : own ++ (s.pc t).toPut = [e] := by
    clear hret
    induction h with
    | call => simp [setPc, upd, startPC, PC.toPut]
    | own _ _ ch ih => rw [List.append_assoc, toPut_step]; exact ih
    | other _ u hu ch ih => rw [step_pc_other c _ u ch t (fun h => hu h.symm)]; exact ih
    | @calls l s _ u hu _ _ call ih =>
      have : (setPc s u (startPC call)).pc t = s.pc t := if_neg (fun h => hu h.symm)
      rw [this]; exact ih
  rw [hret] at key
  simpa [PC.toPut] using key

/-- `n` steps of thread `t`, which is pushing -/
theorem Pushing.run {c : Cfg} {t : Tid} {e : Event} {s0 s : St} {l : List Event} (h : Pushing c t e s0 l s) (n : Nat) :
    ∃ l', Pushing c t e s0 l' (runN c t n s) := by
  induction n generalizing l s with
  | zero => exact ⟨l, h⟩
  | succ n ih =>
    by_cases hi : s.pc t = .idle
    · have : step c s t calmCh = s := by unfold step; simp only [hi]
      rw [runN, this]; exact ih h
    · exact ih (.own h hi calmCh)

/-- a push into a full queue of one element: the thread makes room itself and then puts its event -/
example : let c : Cfg := { exampleCfg false with capacity := 1 }
    let s0 := (exec c [.call 1 (.push (ev ['a'])), .run 1 4] (init c true)).get rfl
    let s := runN c 2 30 (setPc s0 2 (startPC (.push (ev ['b']))))
    (∃ own, Pushing c 2 (ev ['b']) s0 own s) ∧ s0.queued = c.capacity ∧ s.pc 2 = .idle ∧ s.put = [ev ['a'], ev ['b']] :=
  ⟨Pushing.run .call 30, rfl, rfl, rfl⟩

/-! ## C27: a requested rotation is carried out -/

/-- `rotate()` of a file sink leaves a request. -/
theorem C27_rotate_requests (c : Cfg) (s : St) (t : Tid) (ch : Ch) (hf : c.isFile = true) (hp : s.pc t = .rotate) :
    (step c s t ch).needRotate = true ∧ (step c s t ch).pc t = .async := by
  unfold step; simp only [hp]; rw [if_pos hf]; simp [setPc, upd]

/-- The request is dropped only by the thread inside `flush` that goes on to re-open the file. -/
theorem C27_request_kept (c : Cfg) (s : St) (t : Tid) (ch : Ch) (hr : s.needRotate = true)
    (hn : (step c s t ch).needRotate = false) : ∃ k, s.pc t = .casRotate k ∧ (step c s t ch).pc t = .reopen k := by
  cases hp : s.pc t with
  | casRotate k =>
    refine ⟨k, rfl, ?_⟩
    unfold step at hn ⊢
    simp only [hp] at hn ⊢
    split
    · simp [setPc, upd]
    · rename_i h; rw [if_neg h] at hn; exact absurd hn (by simp [setPc, hr])
  | write k e =>
    exfalso
    unfold step at hn; simp only [hp] at hn
    cases e with
    | none => simp only [setPc] at hn; rw [hr] at hn; cases hn
    | some e => simp only at hn; split at hn <;> (simp only [setPc] at hn; rw [hr] at hn; cases hn)
  | _ =>
    exfalso
    unfold step at hn; simp only [hp] at hn
    (repeat' split at hn) <;> (try simp only [setPc] at hn) <;> first | (rw [hr] at hn; cases hn) | cases hn

/-- The run of one flush of thread `t`, from the state `s0`: its own steps, between which anything else may happen
(steps of other threads, new calls, the destructor).  The compare-exchange and the opening of the file succeed in the
steps of `t` itself. -/
inductive FlushRun (c : Cfg) (t : Tid) (s0 : St) : St → Prop where
  | start : FlushRun c t s0 s0
  | own {s : St} (h : FlushRun c t s0 s) (ch : Ch) (hc : ch.casOk = true) (ho : ch.openOk = true) (hb : ∀ k, s.pc t ≠ .leave k) :
      FlushRun c t s0 (step c s t ch)
  | other {s : St} (h : FlushRun c t s0 s) (u : Tid) (hu : u ≠ t) (ch : Ch) : FlushRun c t s0 (step c s u ch)
  | call {s : St} (h : FlushRun c t s0 s) (u : Tid) (hw : u ≠ workerTid) (hi : s.pc u = .idle) (hd : s.owner = none) (call : Call) :
      FlushRun c t s0 (setPc s u (startPC call))
  | destroy {s : St} (h : FlushRun c t s0 s) (u : Tid) (hw : u ≠ workerTid) (hd : s.owner = none)
      (hi : ∀ v, v ≠ workerTid → s.pc v = .idle) : FlushRun c t s0 (setPc { s with owner := some u } u .dStart)

theorem FlushRun.reach {c : Cfg} {o : Bool} {t : Tid} {s0 s : St} (h0 : Reach c o s0) (h : FlushRun c t s0 s) : Reach c o s := by
  induction h with
  | start => exact h0
  | own _ ch _ _ _ ih => exact .next ih (.step _ t ch)
  | other _ u _ ch ih => exact .next ih (.step _ u ch)
  | call _ u hw hi hd call ih => exact .next ih (exec_call hw hi hd call)
  | destroy _ u hw hd hi ih => exact .next ih (.destroy _ u hw hd hi)

/-- inside `flush` with the given continuation, before the rotation request is looked at -/
def PC.beforeRotate (k : Ret) : PC → Prop
  | .get k' | .uncount k' _ | .unref k' _ | .write k' _ | .casFlush k' | .sync k' | .casRotate k' => k' = k
  | _ => False

theorem beforeRotate_inBody {k : Ret} {p : PC} (h : p.beforeRotate k) : p.inBody = true := by
  cases p <;> first | rfl | cases h

/-- what `t` has achieved: the request is still there, or it is re-opening, or a generation was added -/
def Honouring (k : Ret) (t : Tid) (n : Nat) (s : St) : Prop :=
  ((s.pc t).beforeRotate k ∧ s.needRotate = true ∧ s.gens.length = n) ∨ (s.pc t = .reopen k ∧ s.gens.length = n) ∨
  (s.pc t = .leave k ∧ s.gens.length = n + 1)

theorem honouring_own {c : Cfg} {k : Ret} {t : Tid} {n : Nat} {s : St} (hf : c.isFile = true) (h : Honouring k t n s) (ch : Ch)
    (hc : ch.casOk = true) (ho : ch.openOk = true) (hb : ∀ k, s.pc t ≠ .leave k) : Honouring k t n (step c s t ch) := by
  have hsys : c.isSyslog = false := by
    unfold Cfg.isFile at hf; unfold Cfg.isSyslog
    have : c.kind = .file := by simpa using hf
    rw [this]; rfl
  have ht : ∀ k e, taking c k e = .uncount k e := fun k e => by unfold taking; rw [hsys]; rfl
  have hn : ∀ k, nothing c k = .write k none := fun k => by unfold nothing; rw [hsys]; rfl
  rcases h with ⟨h1, h2, h3⟩ | ⟨h1, h3⟩ | ⟨h1, h3⟩
  · cases hp : s.pc t with
    | casRotate k' =>
      rw [hp] at h1
      have : k' = k := h1
      subst this
      right; left
      unfold step; simp only [hp]; rw [if_pos (by rw [hf, h2, hc]; rfl)]
      exact ⟨by simp [setPc, upd], h3⟩
    | get k' =>
      rw [hp] at h1
      have : k' = k := h1
      subst this
      left
      unfold step; simp only [hp]
      split
      · refine ⟨?_, h2, h3⟩; rw [hn]; simp [setPc, upd, PC.beforeRotate]
      · split
        · refine ⟨?_, h2, h3⟩; rw [ht]; simp [setPc, upd, PC.beforeRotate]
        · refine ⟨?_, h2, h3⟩; rw [hp]; exact rfl
    | write k' e =>
      rw [hp] at h1
      have : k' = k := h1
      subst this
      left
      unfold step; simp only [hp]
      cases e with
      | none => exact ⟨by simp [setPc, upd, PC.beforeRotate], h2, h3⟩
      | some e => simp only; split <;> exact ⟨by simp [setPc, upd, PC.beforeRotate], h2, h3⟩
    | uncount k' e =>
      rw [hp] at h1
      have : k' = k := h1
      subst this
      left; unfold step; simp only [hp]; exact ⟨by simp [setPc, upd, PC.beforeRotate], h2, h3⟩
    | unref k' e =>
      rw [hp] at h1
      have : k' = k := h1
      subst this
      left; unfold step; simp only [hp]; exact ⟨by simp [setPc, upd, PC.beforeRotate], h2, h3⟩
    | casFlush k' =>
      rw [hp] at h1
      have : k' = k := h1
      subst this
      left; unfold step; simp only [hp]; split <;> exact ⟨by simp [setPc, upd, PC.beforeRotate], h2, h3⟩
    | sync k' =>
      rw [hp] at h1
      have : k' = k := h1
      subst this
      left; unfold step; simp only [hp]; exact ⟨by simp [setPc, upd, PC.beforeRotate], h2, h3⟩
    | _ => rw [hp] at h1; cases h1
  · right; right
    unfold step; simp only [h1]; rw [if_pos ho]
    exact ⟨by simp [setPc, upd], by simp [setPc, h3]⟩
  · exact absurd h1 (hb k)

theorem honouring_frame {k : Ret} {t : Tid} {n : Nat} {s s' : St} (h : Honouring k t n s) (hp : s'.pc t = s.pc t)
    (hg : s'.gens = s.gens) (hr : s.needRotate = true → s'.needRotate = true) : Honouring k t n s' := by
  unfold Honouring
  rw [hp, hg]
  rcases h with ⟨h1, h2, h3⟩ | h | h
  · exact Or.inl ⟨h1, hr h2, h3⟩
  · exact Or.inr (Or.inl h)
  · exact Or.inr (Or.inr h)

theorem honouring_inBody {k : Ret} {t : Tid} {n : Nat} {s : St} (h : Honouring k t n s) : (s.pc t).inBody = true := by
  rcases h with ⟨h1, _, _⟩ | ⟨h1, _⟩ | ⟨h1, _⟩
  · exact beforeRotate_inBody h1
  · rw [h1]; rfl
  · rw [h1]; rfl

theorem honouring_run {c : Cfg} {o : Bool} {k : Ret} {t : Tid} {n : Nat} {s0 s : St} (hf : c.isFile = true) (hr : Reach c o s0)
    (h0 : Honouring k t n s0) (h : FlushRun c t s0 s) : Honouring k t n s := by
  induction h with
  | start => exact h0
  | own _ ch hc ho hb ih => exact honouring_own hf ih ch hc ho hb
  | @other s h u hu ch ih =>
    have hre := h.reach hr
    have hbody : (s.pc u).inBody = false := by
      cases hb : (s.pc u).inBody with
      | false => rfl
      | true => exact absurd ((excl_reach hre).uniq u t hb (honouring_inBody ih)) hu
    refine honouring_frame ih (step_pc_other c s u ch t (Ne.symm hu)) ?_ ?_
    · by_cases hg : (step c s u ch).gens = s.gens
      · exact hg
      · rcases (C25_one_writer c o s hre).2 u ch (Or.inr (Or.inl hg)) with h1 | ⟨_, h1⟩
        · rw [hbody] at h1; cases h1
        · have := h1 t; rw [honouring_inBody ih] at this; cases this
    · intro hnr
      cases hx : (step c s u ch).needRotate with
      | true => rfl
      | false =>
        obtain ⟨k', hk, _⟩ := C27_request_kept c s u ch hnr hx
        rw [hk] at hbody; cases hbody
  | @call s h u hw hi hd call ih =>
    have hut : t ≠ u := fun e => by have := honouring_inBody ih; rw [e, hi] at this; cases this
    exact honouring_frame ih (by simp [setPc, upd, hut]) rfl id
  | @destroy s h u hw hd hi ih =>
    have hut : t ≠ u := fun e => by have := honouring_inBody ih; rw [e, hi u hw] at this; cases this
    exact honouring_frame ih (by simp [setPc, upd, hut]) rfl id

/-- A rotation requested before a thread begins the body of `flush` is carried out by that flush: when it comes to
leave, exactly one generation has been added — whatever the other threads did meanwhile, provided the weak
compare-exchange does not fail spuriously and the file can be opened. -/
theorem C27_request_honoured (c : Cfg) (o : Bool) (s0 s : St) (t : Tid) (k : Ret) (hf : c.isFile = true) (hr : Reach c o s0)
    (hp : s0.pc t = .get k) (hq : s0.needRotate = true) (h : FlushRun c t s0 s) (hl : ∃ k', s.pc t = .leave k') :
    s.gens.length = s0.gens.length + 1 := by
  have h0 : Honouring k t s0.gens.length s0 := Or.inl ⟨by rw [hp]; exact rfl, hq, rfl⟩
  obtain ⟨k', hl⟩ := hl
  rcases honouring_run hf hr h0 h with ⟨h1, _, _⟩ | ⟨h1, _⟩ | ⟨_, h1⟩
  · rw [hl] at h1; cases h1
  · rw [hl] at h1; cases h1
  · exact h1

/-- "a" is queued and a rotation is requested; thread 2 begins to flush; while it does, thread 3 pushes "b" -/
def requested : St := (exec (exampleCfg false) [.call 1 (.push (ev ['a'])), .run 1 4, .call 1 .rotate, .run 1 2,
  .call 2 .flush, .run 2 1] (init (exampleCfg false) true)).get rfl

def leaving : PC → Bool
  | .leave _ => true
  | _ => false

/-- `n` steps of `t`, none of them from the last line of `flush` -/
def runFlush (c : Cfg) (t : Tid) : Nat → St → Option St
  | 0, s => some s
  | n + 1, s => if leaving (s.pc t) then none else runFlush c t n (step c s t calmCh)

theorem runFlush_run {c : Cfg} {t : Tid} {n : Nat} {s0 s s' : St} (h : FlushRun c t s0 s) (he : runFlush c t n s = some s') :
    FlushRun c t s0 s' := by
  induction n generalizing s with
  | zero => cases he; exact h
  | succ n ih =>
    rw [runFlush] at he
    by_cases hl : leaving (s.pc t)
    · rw [if_pos hl] at he; cases he
    · rw [if_neg hl] at he
      exact ih (.own h calmCh rfl rfl (fun k hk => hl (by rw [hk]; rfl))) he

/-- … the flush up to the writing of the record, while thread 3 puts "b" … -/
def requested1 : St := (runFlush (exampleCfg false) 2 3 requested).get rfl
def requested2 : St := step (exampleCfg false) (setPc requested1 3 (startPC (.push (ev ['b'])))) 3 calmCh
/-- … and the rest of it -/
def requestedDone : St := (runFlush (exampleCfg false) 2 5 requested2).get rfl

theorem requested_run : FlushRun (exampleCfg false) 2 requested requestedDone :=
  runFlush_run (.other (.call (runFlush_run .start (Option.some_get _).symm) 3 (by decide) rfl rfl (.push (ev ['b']))) 3
    (by decide) calmCh) (Option.some_get _).symm

example : Reach (exampleCfg false) true requested ∧ requested.pc 2 = .get .done ∧ requested.needRotate = true ∧
    FlushRun (exampleCfg false) 2 requested requestedDone ∧
    requestedDone.pc 2 = .leave .done ∧ requestedDone.gens = [['a', '\n']] ∧
    requestedDone.put.map (·.message) = [['a'], ['b']] :=
  ⟨exec_reach .init (Option.some_get _).symm, rfl, rfl, requested_run, rfl, rfl, rfl⟩

end SinkConc
end Soralog
