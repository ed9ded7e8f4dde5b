import Verif.Proofs.FailingStream
import Verif.Props.SinkFull
/-!
# C106: what a failing disk costs
-/
namespace Soralog
namespace FailingStream

open SinkConc (Cfg Ch Call)
open SinkFull (accepted)
open Many (Matches)

/-! ### concrete executions -/

/-- no failure -/
def fine : Io := ⟨false, 0, 0⟩

inductive Act where
  | call (t : Tid) (c : Call)
  | run (t : Tid) (n : Nat) (io : Io)

def runN (c : Cfg) (t : Tid) (io : Io) : Nat → St → St
  | 0, s => s
  | n + 1, s => runN c t io n ⟨SinkFull.step c s.sink t SinkConc.calmCh, outStep c s.sink t SinkConc.calmCh io s.out⟩

def exec (c : Cfg) : List Act → St → Option St
  | [], s => some s
  | .call t call :: as, s =>
    if t ≠ SinkConc.workerTid ∧ s.sink.pc t = .idle ∧ s.sink.owner.isNone then
      exec c as ⟨SinkFull.setPc s.sink t (SinkFull.startPC call), s.out⟩ else none
  | .run t n io :: as, s => exec c as (runN c t io n s)

theorem runN_reach {c : Cfg} {o : Bool} {t : Tid} {io : Io} {n : Nat} {s : St} (h : Reach c o s) : Reach c o (runN c t io n s) := by
  induction n generalizing s with
  | zero => exact h
  | succ n ih => exact ih (.next h (.step s t SinkConc.calmCh io))

theorem exec_reach {c : Cfg} {o : Bool} {as : List Act} {s s' : St} (h : Reach c o s) (he : exec c as s = some s') :
    Reach c o s' := by
  induction as generalizing s with
  | nil => cases he; exact h
  | cons a as ih =>
    cases a with
    | call t call =>
      simp only [exec] at he
      split at he
      · rename_i hc
        exact ih (.next h (Exec.call s t hc.1 hc.2.1 (by simpa using hc.2.2) call)) he
      · cases he
    | run t n io => exact ih (runN_reach h) he

theorem runN_fine {c : Cfg} {t : Tid} {io : Io} (hio : io.fails = false) {n : Nat} {s0 s : St} (h : WithoutFailure c s0 s) :
    WithoutFailure c s0 (runN c t io n s) := by
  induction n generalizing s with
  | zero => exact h
  | succ n ih => exact ih (.step t SinkConc.calmCh io hio h)

def Act.calm : Act → Bool
  | .call _ _ => true
  | .run _ _ io => !io.fails

theorem exec_fine {c : Cfg} {as : List Act} {s0 s s' : St} (ha : as.all Act.calm = true) (h : WithoutFailure c s0 s)
    (he : exec c as s = some s') : WithoutFailure c s0 s' := by
  induction as generalizing s with
  | nil => cases he; exact h
  | cons a as ih =>
    simp only [List.all_cons, Bool.and_eq_true] at ha
    cases a with
    | call t call =>
      simp only [exec] at he
      split at he
      · rename_i hc
        exact ih ha.2 (.call t hc.1 hc.2.1 (by simpa using hc.2.2) call h) he
      · cases he
    | run t n io => exact ih ha.2 (runN_fine (by simpa [Act.calm] using ha.1) h) he

/-! ## C106 -/

/-- **C106**, nothing notices: the calls of a sink, its worker and its destructor do the same whatever its output operations do -- each execution of sink and
stream is an execution of the sink (of C72), and whatever the sink can do next it can do next with the stream in any state. -/
theorem C106_unnoticed (c : Cfg) (o : Bool) (s : St) (h : Reach c o s) :
    SinkFull.Reach c o s.sink ∧ ∀ f, SinkFull.Exec c s.sink f → ∃ x, Reach c o ⟨f, x⟩ := by
  refine ⟨sink_reach h, fun f hf => ?_⟩
  cases hf with
  | call t ht hi hd call => exact ⟨_, .next h (.call s t ht hi hd call)⟩
  | step t ch => exact ⟨_, .next h (.step s t ch fine)⟩
  | destroy t ht hd hi => exact ⟨_, .next h (.destroy s t ht hd hi)⟩

/-- **C106**, what is kept.  Whichever operations of the stream fail, at any moment of any execution: the events handed to the stream -- a beginning of
the accepted ones, if the file could be opened at first -- are cut into consecutive parts, one for each file generation, and each earlier file holds a
beginning of the records of its part, followed, if an operation failed, by at most a part of them sent again when it was closed, and exactly the
records of its part if no operation on it failed; the present file holds a beginning of the records of the last part, and what it does not hold is
still in the buffer if no operation on it failed.  Missing: see `C106_refuted`. -/
theorem C106_kept_partial (c : Cfg) (o : Bool) (hcap : 0 < c.capacity) (hk : c.isSyslog = false) (s : St) (h : Reach c o s) :
    (o = true → s.sink.written <+: accepted s.sink) ∧
    ∃ (parts : List (List Event)) (last : List Event), s.sink.written = parts.flatten ++ last ∧
      Matches (fun f p => Keeps f (p.flatMap c.render)) s.out.closed parts ∧
      s.out.now.data <+: last.flatMap c.render ∧ s.out.now.again <:+: last.flatMap c.render ∧
      (s.out.now.failed = false → s.out.now.contents ++ s.out.pend = last.flatMap c.render) := by
  have hi := inv_reach h
  refine ⟨fun ho => by subst ho; exact (SinkFull.C72_exactly_once_in_order c hcap s.sink (sink_reach h)).1, ?_⟩
  obtain ⟨a, ha, _, _, h3, h4, h5, h6, _⟩ := SinkFull.C72_same_observations c o hcap s.sink (sink_reach h)
  obtain ⟨parts, last, g1, g2, g3⟩ := SinkConc.C27_rotation_partitions c o a ha hk
  rw [h3] at g1; rw [h4] at g2; rw [h5, h6] at g3
  refine ⟨parts, last, g1, ?_, by rw [← g3]; exact hi.data, by rw [← g3]; exact hi.again, fun hf => ?_⟩
  · have := hi.closed; rw [g2] at this
    exact matches_map this
  · obtain ⟨e1, e2, e3⟩ := hi.good hf
    unfold File.contents
    rw [← g3, e1, e2, e3, List.append_nil]

theorem silent {c : Cfg} {s s' : St} (hf : s.out.now.failed = true) (h : WithoutReopen c s s') :
    s'.out.closed = s.out.closed ∧ s'.out.now.data = s.out.now.data ∧ s'.out.now.failed = true ∧
      ((s'.out.pend = s.out.pend ∧ s'.out.now.again = s.out.now.again) ∨
        (s'.out.pend = [] ∧ ∃ r, r <+: s.out.pend ∧ s'.out.now.again = s.out.now.again ++ r)) := by
  induction h with
  | refl => exact ⟨rfl, rfl, hf, .inl ⟨rfl, rfl⟩⟩
  | @next s' s'' _ he hc ih =>
    obtain ⟨i1, i2, i3, i4⟩ := ih
    cases he with
    | call t ht hi hd call => exact ⟨i1, i2, i3, i4⟩
    | destroy t ht hd hi => exact ⟨i1, i2, i3, i4⟩
    | step t ch io =>
      dsimp only at hc ⊢
      by_cases hs : onStream (s'.sink.pc t) = false
      · rw [outStep_other hs]; exact ⟨i1, i2, i3, i4⟩
      · have hs' : onStream (s'.sink.pc t) = true := by simpa using hs
        unfold onStream at hs'
        split at hs'
        · rename_i k e hp
          have : outStep c s'.sink t ch io s'.out = s'.out := by
            unfold outStep; simp only [hp]; unfold Out.write; dsimp only; rw [if_pos i3]
          rw [this]; exact ⟨i1, i2, i3, i4⟩
        · rename_i k hp
          have : outStep c s'.sink t ch io s'.out = s'.out := by
            unfold outStep; simp only [hp]; unfold Out.sync; rw [if_pos i3]
          rw [this]; exact ⟨i1, i2, i3, i4⟩
        · rename_i k hp
          have he : outStep c s'.sink t ch io s'.out = if ch.openOk then s'.out.reopen io else s'.out := by
            unfold outStep; simp only [hp]
          rw [he] at hc ⊢
          split at hc
          · exfalso
            have := congrArg List.length hc
            simp [Out.reopen] at this
          · rename_i ho
            rw [if_neg ho]; exact ⟨i1, i2, i3, i4⟩
        · rename_i hp
          have he : outStep c s'.sink t ch io s'.out = if c.isFile then s'.out.close io else s'.out := by
            unfold outStep; simp only [hp]
          rw [he]
          split
          · unfold Out.close
            dsimp only
            rw [if_pos i3]
            refine ⟨i1, i2, i3, .inr ⟨rfl, ?_⟩⟩
            rcases i4 with ⟨j1, j2⟩ | ⟨j1, r, j2, j3⟩
            · rw [j1, j2]
              split
              · exact ⟨_, List.take_prefix _ _, rfl⟩
              · exact ⟨_, List.prefix_rfl, rfl⟩
            · refine ⟨r, j2, ?_⟩
              rw [j1, j3]; simp
          · exact ⟨i1, i2, i3, i4⟩
        · cases hs'

/-- **C106**, what is lost.  Once an operation on the present file has failed (or it could not be opened), nothing that is logged reaches a file until a
re-opening succeeds, however long the disk has been working again, whatever is logged, flushed or asked for: the files stay as they are, except that the
closing of the file may send, again, what was left in the buffer at the failure. -/
theorem C106_silent_until_reopened (c : Cfg) (s s' : St) (hf : s.out.now.failed = true) (h : WithoutReopen c s s') :
    s'.out.closed = s.out.closed ∧ s'.out.now.data = s.out.now.data ∧ s'.out.now.failed = true ∧
      ∃ r, r <+: s.out.pend ∧ s'.out.now.again = s.out.now.again ++ r := by
  obtain ⟨h1, h2, h3, h4⟩ := silent hf h
  refine ⟨h1, h2, h3, ?_⟩
  rcases h4 with ⟨_, h5⟩ | ⟨_, h5⟩
  · exact ⟨[], List.nil_prefix, by rw [h5, List.append_nil]⟩
  · exact h5

/-- **C106**, consoles: a console is never re-opened, so after one failed operation on `std::cout` or `std::cerr` nothing is shown any more, ever. -/
theorem C106_console_silent_for_ever (c : Cfg) (o : Bool) (hk : c.isFile = false) (s : St) (h : Reach c o s) (hf : s.out.now.failed = true)
    (s' : St) (he : Exec c s s') : s'.out = s.out := by
  cases he with
  | call t ht hi hd call => rfl
  | destroy t ht hd hi => rfl
  | step t ch io =>
    dsimp only
    unfold outStep
    split
    · unfold Out.write; dsimp only; rw [if_pos hf]
    · unfold Out.sync; rw [if_pos hf]
    · rename_i hp
      have := reopen_file (sink_reach h) t _ hp
      rw [hk] at this; cases this
    · rw [if_neg (by rw [hk]; simp)]
    · rfl

/-- **C106**, re-opening helps: a re-opening of the file that succeeds leaves a new file in use on which nothing has failed. -/
theorem C106_reopening_helps (c : Cfg) (s : St) (t : Tid) (ch : Ch) (io : Io) (k : SinkConc.Ret) (hp : s.sink.pc t = .reopen k)
    (ho : ch.openOk = true) : (outStep c s.sink t ch io s.out).now = ⟨[], [], false⟩ ∧
      (outStep c s.sink t ch io s.out).closed.length = s.out.closed.length + 1 := by
  unfold outStep
  simp only [hp, ho]
  exact ⟨rfl, by simp [Out.reopen]⟩

/-- all bytes the files and the buffer hold -/
def bytes (x : Out) : Text := x.closed.flatMap File.contents ++ x.now.contents ++ x.pend

theorem step_written {c : Cfg} {s : SinkFull.St} {t : Tid} {ch : Ch} (hk : c.isSyslog = false)
    (hs : ∀ k, s.pc t ≠ .sCall k) :
    (SinkFull.step c s t ch).written = s.written ++
      (match s.pc t with
        | .write _ (some e) => if s.isOpen then [e] else []
        | _ => []) := by
  unfold SinkFull.step
  split <;> rename_i hp <;> (try (exact absurd hp (hs _))) <;> (try dsimp only) <;> (repeat' split) <;> simp_all [SinkFull.setPc]

/-- only the syslog sink calls `syslog()` -/
theorem sCall_syslog {c : Cfg} {o : Bool} {s : SinkFull.St} (h : SinkFull.Reach c o s) (hk : c.isSyslog = false) :
    ∀ t k, s.pc t ≠ .sCall k := by
  induction h with
  | init =>
    intro t k hp
    simp only [SinkFull.init] at hp
    (repeat' split at hp) <;> cases hp
  | @next s s' hr he ih =>
    intro t k hp
    cases he with
    | call u hu hi hd call =>
      simp only [SinkFull.setPc, upd] at hp
      split at hp
      · cases call <;> cases hp
      · exact ih t k hp
    | destroy u hu hd hi =>
      simp only [SinkFull.setPc, upd] at hp
      split at hp
      · cases hp
      · exact ih t k hp
    | step u ch =>
      by_cases htu : t = u
      · subst htu
        unfold SinkFull.step at hp
        split at hp <;> (try dsimp only at hp) <;> (repeat' split at hp) <;>
          simp_all [SinkFull.setPc, upd, SinkFull.afterFlush, SinkFull.taking, SinkFull.nothing] <;> (repeat' split at hp) <;> simp_all
      · rw [Race.step_pc_other c s u ch t htu] at hp
        exact ih t k hp

theorem fine_step {c : Cfg} {s : St} (hi : Inv s) (hk : c.isSyslog = false) (hs : ∀ t k, s.sink.pc t ≠ .sCall k)
    (hf : s.out.now.failed = false) (t : Tid) (ch : Ch) (io : Io) (hio : io.fails = false) :
    (outStep c s.sink t ch io s.out).now.failed = false ∧ s.out.closed <+: (outStep c s.sink t ch io s.out).closed ∧
    ∃ new, (SinkFull.step c s.sink t ch).written = s.sink.written ++ new ∧
      bytes (outStep c s.sink t ch io s.out) = bytes s.out ++ new.flatMap c.render := by
  have hw := step_written (ch := ch) hk (hs t)
  obtain ⟨g1, g2, g3⟩ := hi.good hf
  by_cases hn : onStream (s.sink.pc t) = false
  · rw [outStep_other hn]
    refine ⟨hf, List.prefix_rfl, [], ?_, by simp⟩
    rw [hw]
    split
    · rename_i hp; rw [hp] at hn; cases hn
    · rfl
  · have hs' : onStream (s.sink.pc t) = true := by simpa using hn
    unfold onStream at hs'
    split at hs'
    · rename_i k e hp
      have ho : s.sink.isOpen = true := by
        cases ho : s.sink.isOpen with
        | true => rfl
        | false => rw [hi.opened ho] at hf; cases hf
      simp only [hp, ho, if_true] at hw
      unfold outStep; simp only [hp]
      unfold Out.write
      dsimp only
      rw [if_neg (by rw [hf]; simp), if_neg (by rw [hio]; simp)]
      refine ⟨hf, List.prefix_rfl, [e], hw, ?_⟩
      simp [bytes, File.contents, g3]
    · rename_i k hp
      simp only [hp] at hw
      unfold outStep; simp only [hp]
      unfold Out.sync
      rw [if_neg (by rw [hf]; simp), if_neg (by rw [hio]; simp)]
      refine ⟨hf, List.prefix_rfl, [], hw, ?_⟩
      simp [bytes, File.contents, g3]
    · rename_i k hp
      simp only [hp] at hw
      unfold outStep; simp only [hp]
      split
      · refine ⟨rfl, List.prefix_append _ _, [], hw, ?_⟩
        simp [bytes, File.contents, g3, Out.reopen, Out.close, hf, hio]
      · exact ⟨hf, List.prefix_rfl, [], hw, by simp⟩
    · rename_i hp
      simp only [hp] at hw
      unfold outStep; simp only [hp]
      split
      · refine ⟨?_, List.prefix_rfl, [], hw, ?_⟩
        · simp [Out.close, hf, hio]
        · simp [bytes, File.contents, g3, Out.close, hf, hio]
      · exact ⟨hf, List.prefix_rfl, [], hw, by simp⟩
    · cases hs'

/-- **C106**, nothing is lost while nothing fails: from any moment at which no operation on the present file has failed -- for instance just after a
re-opening -- as long as no operation fails, every record that is handed over is in the files, old and new, or in the buffer, in order and once. -/
theorem C106_complete_while_fine (c : Cfg) (o : Bool) (hk : c.isSyslog = false) (s s' : St) (h : Reach c o s)
    (hf : s.out.now.failed = false) (hr : WithoutFailure c s s') :
    s'.out.now.failed = false ∧ s.out.closed <+: s'.out.closed ∧
    ∃ new, s'.sink.written = s.sink.written ++ new ∧ bytes s'.out = bytes s.out ++ new.flatMap c.render := by
  suffices Reach c o s' ∧ s'.out.now.failed = false ∧ s.out.closed <+: s'.out.closed ∧
    ∃ new, s'.sink.written = s.sink.written ++ new ∧ bytes s'.out = bytes s.out ++ new.flatMap c.render from this.2
  induction hr with
  | refl => exact ⟨h, hf, List.prefix_rfl, [], by simp, by simp⟩
  | call t ht hi hd call _ ih =>
    obtain ⟨h0, h1, h2, h3⟩ := ih
    exact ⟨.next h0 (.call _ t ht hi hd call), h1, h2, h3⟩
  | destroy t ht hd hi _ ih =>
    obtain ⟨h0, h1, h2, h3⟩ := ih
    exact ⟨.next h0 (.destroy _ t ht hd hi), h1, h2, h3⟩
  | step t ch io hio _ ih =>
    obtain ⟨h0, h1, h2, new, h3, h4⟩ := ih
    obtain ⟨g1, g2, new', g3, g4⟩ := fine_step (inv_reach h0) hk (sCall_syslog (sink_reach h0) hk) h1 t ch io hio
    refine ⟨.next h0 (.step _ t ch io), g1, h2.trans g2, new ++ new', ?_, ?_⟩
    · dsimp only; rw [g3, h3, List.append_assoc]
    · dsimp only; rw [g4, h4, List.flatMap_append, List.append_assoc]

/-- **C106**, the end: when a file sink with a latency has been destroyed, and no operation on its last file failed, nothing is left anywhere: every accepted
event was handed over and, by `C106_kept_partial`, the last file holds exactly the records of its part. -/
theorem C106_nothing_left (c : Cfg) (hcap : 0 < c.capacity) (hk : c.isFile = true) (hl : c.latency0 = false) (s : St) (h : Reach c true s)
    (d : Tid) (hd : s.sink.owner = some d) (hdead : s.sink.pc d = .dead) (hf : s.out.now.failed = false) :
    s.sink.written = accepted s.sink ∧ s.out.pend = [] ∧
    ∃ (parts : List (List Event)) (last : List Event), accepted s.sink = parts.flatten ++ last ∧
      Matches (fun f p => Keeps f (p.flatMap c.render)) s.out.closed parts ∧ s.out.now.contents = last.flatMap c.render := by
  have hsy : c.isSyslog = false := by
    revert hk; unfold Cfg.isFile Cfg.isSyslog; cases c.kind <;> decide
  have hi := inv_reach h
  obtain ⟨a, ha, h1, _, h3, h4, h5, h6, _, _, _, h10, _, h12⟩ := SinkFull.C72_same_observations c true hcap s.sink (sink_reach h)
  obtain ⟨g1, g2⟩ := SinkConc.C26_destructor_writes_all_partial c a ha hl d (h10.trans hd) (h12 d hdead)
  have g3 := SinkConc.C24_stream_contents c true a ha hsy
  rw [g2 hk, g1] at g3
  have hs : a.sbuf = [] := by simpa using g3
  have hp : s.out.pend = [] := (hi.good hf).2.1.trans (h6.symm.trans hs)
  have hw : s.sink.written = accepted s.sink := by rw [← h3, ← h1, g1]
  obtain ⟨_, parts, last, k1, k2, _, _, k5⟩ := C106_kept_partial c true hcap hsy s h
  refine ⟨hw, hp, parts, last, hw ▸ k1, k2, ?_⟩
  have := k5 hf
  rwa [hp, List.append_nil] at this

/-- a file without latency: "a" is logged, then "b", when the disk is full ... -/
def fullDisk : St := (exec (SinkFull.cfg2 .file true)
  [.call 1 (.push (SinkConc.ev ['a'])), .run 1 40 fine, .call 1 (.push (SinkConc.ev ['b'])), .run 1 40 ⟨true, 2, 4⟩]
  (init (SinkFull.cfg2 .file true) true)).get (by decide +kernel)

/-- ... and then, when it works again, "c" -/
def worksAgain : St := (exec (SinkFull.cfg2 .file true)
  [.call 1 (.push (SinkConc.ev ['c'])), .run 1 40 fine] fullDisk).get (by decide +kernel)

/-- the file is rotated and "d" is logged -/
def rotatedAgain : St := (exec (SinkFull.cfg2 .file true)
  [.call 1 .rotate, .run 1 40 fine, .call 1 (.push (SinkConc.ev ['d'])), .run 1 40 fine] worksAgain).get (by decide +kernel)

theorem fullDisk_reach : Reach (SinkFull.cfg2 .file true) true fullDisk := exec_reach .init (Option.some_get _).symm
theorem worksAgain_reach : Reach (SinkFull.cfg2 .file true) true worksAgain := exec_reach fullDisk_reach (Option.some_get _).symm

/-- The full C106 is false: an operation of the stream fails while "b" is written; from then on (`fullDisk`) no operation fails, "c" is logged and the call
returns like any other; and whatever happens afterwards, "c" will never be in the file, unless the file is rotated. -/
theorem C106_refuted : ∃ (c : Cfg) (s1 s : St), Reach c true s1 ∧ (accepted s1.sink).map (·.message) = [['a'], ['b']] ∧
    WithoutFailure c s1 s ∧ s.sink.pc 1 = .idle ∧ (accepted s.sink).map (·.message) = [['a'], ['b'], ['c']] ∧
    s.sink.written = accepted s.sink ∧
    ∀ s', WithoutReopen c s s' → s'.out.closed = [] ∧ s'.out.now.contents = ['a', '\n'] := by
  refine ⟨_, fullDisk, worksAgain, fullDisk_reach, by decide +kernel, exec_fine rfl (.refl _) (Option.some_get _).symm,
    by decide +kernel, by decide +kernel, by decide +kernel, fun s' h => ?_⟩
  obtain ⟨h1, h2, _, r, h3, h4⟩ := C106_silent_until_reopened _ _ _ (by decide +kernel) h
  have hp : worksAgain.out.pend = [] := by decide +kernel
  rw [hp, List.prefix_nil] at h3
  have hc : worksAgain.out.closed = [] := by decide +kernel
  have hd : worksAgain.out.now.data = ['a', '\n'] := by decide +kernel
  have ha : worksAgain.out.now.again = [] := by decide +kernel
  refine ⟨h1.trans hc, ?_⟩
  unfold File.contents
  rw [h2, h4, h3, hd, ha]; rfl

/-- after a rotation records are written again: hypotheses of `C106_kept_partial` and `C106_complete_while_fine` met by a run with a failure -/
example : Reach (SinkFull.cfg2 .file true) true rotatedAgain ∧ rotatedAgain.out.now.failed = false ∧
    rotatedAgain.out.closed.map File.contents = [['a', '\n']] ∧ rotatedAgain.out.now.contents ++ rotatedAgain.out.pend = ['d', '\n'] ∧
    rotatedAgain.sink.written.map (·.message) = [['a'], ['b'], ['c'], ['d']] :=
  ⟨exec_reach worksAgain_reach (Option.some_get _).symm, by decide +kernel, by decide +kernel, by decide +kernel, by decide +kernel⟩

example : fullDisk.out.now.failed = true ∧ WithoutReopen (SinkFull.cfg2 .file true) fullDisk fullDisk ∧
    fullDisk.out.now.data = ['a', '\n'] := ⟨by decide +kernel, .refl _, by decide +kernel⟩

/-- a console whose terminal is gone -/
def goneTerminal : St := (exec (SinkFull.cfg2 .console true)
  [.call 1 (.push (SinkConc.ev ['a'])), .run 1 40 ⟨true, 0, 0⟩] (init (SinkFull.cfg2 .console true) true)).get (by decide +kernel)
example : (SinkFull.cfg2 .console true).isFile = false ∧ Reach (SinkFull.cfg2 .console true) true goneTerminal ∧
    goneTerminal.out.now.failed = true := ⟨rfl, exec_reach .init (Option.some_get _).symm, by decide +kernel⟩

theorem runN_other {c : Cfg} {t u : Tid} {io : Io} {n : Nat} {s : St} (h : u ≠ t) : (runN c t io n s).sink.pc u = s.sink.pc u := by
  induction n generalizing s with
  | zero => rfl
  | succ n ih => rw [runN, ih]; exact Race.step_pc_other c s.sink t SinkConc.calmCh u h

def Act.tid : Act → Tid
  | .call t _ => t
  | .run t _ _ => t

theorem exec_other {c : Cfg} {u : Tid} {as : List Act} {s s' : St} (ha : ∀ a ∈ as, a.tid ≠ u) (he : exec c as s = some s') :
    s'.sink.pc u = s.sink.pc u := by
  induction as generalizing s with
  | nil => cases he; rfl
  | cons a as ih =>
    have h1 := ha a (by simp)
    have h2 : ∀ a ∈ as, a.tid ≠ u := fun a h => ha a (by simp [h])
    cases a with
    | call t call =>
      simp only [exec] at he
      split at he
      · rw [ih h2 he]
        show upd s.sink.pc t _ u = _
        unfold upd
        rw [if_neg (fun e => h1 e.symm)]
      · cases he
    | run t n io => rw [ih h2 he]; exact runN_other (fun e => h1 e.symm)

/-- a file with a latency on a disk that fails once: "a" is written, "b" fails, the file is rotated with the flush that writes "c" (to the old, failed stream), "d" is accepted -/
def failedOnceActs : List Act :=
  [.call 1 (.push (SinkConc.ev ['a'])), .run 1 40 fine, .call 1 .flush, .run 1 40 fine,
   .call 1 (.push (SinkConc.ev ['b'])), .run 1 40 fine, .call 1 .flush, .run 1 40 ⟨true, 2, 4⟩,
   .call 1 .rotate, .run 1 40 fine, .call 1 (.push (SinkConc.ev ['c'])), .run 1 40 fine, .call 1 .flush, .run 1 40 fine,
   .call 1 (.push (SinkConc.ev ['d'])), .run 1 40 fine]

def failedOnce : St := (exec (SinkFull.cfg2 .file false) failedOnceActs (init (SinkFull.cfg2 .file false) true)).get (by decide +kernel)

theorem failedOnce_quiet : failedOnce.sink.owner = none ∧ ∀ u, u ≠ SinkConc.workerTid → failedOnce.sink.pc u = .idle := by
  refine ⟨by decide +kernel, fun u hu => ?_⟩
  by_cases h1 : u = 1
  · subst h1; decide +kernel
  · refine (exec_other (c := SinkFull.cfg2 .file false) (u := u) (as := failedOnceActs) (s := init (SinkFull.cfg2 .file false) true) ?_ (Option.some_get _).symm).trans ?_
    rotate_left
    · show (if u = SinkConc.workerTid then _ else SinkFull.PC.idle) = _
      exact if_neg hu
    · have : ∀ a ∈ failedOnceActs, a.tid = 1 := by decide
      intro a ha e
      exact h1 (e.symm.trans (this a ha))

/-- it is destroyed: the worker takes what is left and ends -/
def failedOnceEnd : St := runN (SinkFull.cfg2 .file false) 1 fine 40 (runN (SinkFull.cfg2 .file false) 0 fine 60
  (runN (SinkFull.cfg2 .file false) 1 fine 3 ⟨SinkFull.setPc { failedOnce.sink with owner := some 1 } 1 .dStart, failedOnce.out⟩))

example : Reach (SinkFull.cfg2 .file false) true failedOnceEnd ∧ failedOnceEnd.sink.owner = some 1 ∧ failedOnceEnd.sink.pc 1 = .dead ∧
    failedOnceEnd.out.now.failed = false ∧ failedOnceEnd.out.closed.map File.contents = [['a', '\n']] ∧
    failedOnceEnd.out.now.contents = ['d', '\n'] :=
  ⟨runN_reach (runN_reach (runN_reach (.next (exec_reach .init (Option.some_get _).symm)
    (.destroy failedOnce 1 (by decide) failedOnce_quiet.1 failedOnce_quiet.2)))), by decide +kernel, by decide +kernel, by decide +kernel,
    by decide +kernel, by decide +kernel⟩

end FailingStream
end Soralog
