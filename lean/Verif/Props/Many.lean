import Verif.Proofs.Many
import Verif.Props.SystemConc
import Verif.Props.SyslogConc
/-!
# C89: a program with many threads, from the log call to the file

`Reach S s`: `s` is reachable by some schedule of any number of threads that use one logging system (configuring it, changing levels and sinks,
logging) and its sinks (any nesting of multisinks, queues executed one atomic access at a time, workers, destructors), see `Model/Many.lean`.
`s.said` is the history of pushes: log calls that passed their logger's level, warnings of the system, direct pushes.
`addressed S t i s.said` are the messages of thread `t` that queue-owning sink `i` has to accept: in order, each as often as there are paths
of admitting filters to `i` (`Spec.deliveries`).
-/
namespace Soralog
namespace Many
open Spec
open SinkFull (acceptedFrom accepted owed)
open System.Conc (Rec SinkCall callsOf passes expected)

/-! ## the parts -/

/-- **C89**, transport: in every execution of the whole program the logging system goes through an execution of `System.Conc` and each
sink through an execution of `SinkFull`; so everything proved about these (C72, C76–C78) holds in the whole program. -/
theorem C89_parts (S : Setup) (s : St) (h : Reach S s) :
    System.Conc.Reach s.sys ∧ ∀ i, SinkFull.Reach (S.leaf i).conc (S.leaf i).opened (s.leaf i) := ⟨sys_reach h, leaf_reach h⟩

/-! ## delivery -/

/-- **C89**, exactly once and in order: when a thread is inside no call of a sink, the events a queue-owning sink has accepted from it are, one by
one and in order, the events of the messages it addressed to that sink: none is lost, none is doubled, none overtakes another, none goes
to another sink. -/
theorem C89_delivered_once_in_order (S : Setup) (hS : S.Sound) (s : St) (h : Reach S s) (t : Tid) (hf : Free s t) (i : Nat) :
    Matches (EventOf (S.leaf i)) (acceptedFrom t (s.leaf i)) (addressed S t i s.said) := by
  obtain ⟨done, h1, h2⟩ := track hS h t i
  rw [brought_quiet (hf.2 i)] at h2
  rw [h1, hf.1]
  simpa [pend] using h2

/-- **C89**, at any moment: what has been accepted from a thread is the beginning of what it addressed to the sink. -/
theorem C89_never_too_much (S : Setup) (hS : S.Sound) (s : St) (h : Reach S s) (t : Tid) (i : Nat) :
    ∃ done rest, addressed S t i s.said = done ++ rest ∧ Matches (EventOf (S.leaf i)) (acceptedFrom t (s.leaf i)) done := by
  obtain ⟨done, h1, h2⟩ := track hS h t i
  refine ⟨done.take (acceptedFrom t (s.leaf i)).length, done.drop (acceptedFrom t (s.leaf i)).length ++ pend i (s.todo t), ?_, h2.split.1⟩
  rw [h1, ← List.append_assoc, List.take_append_drop]

theorem acceptedBy_map (f : SinkFull.St) : (acceptedBy f).map (·.2) = accepted f := by
  unfold acceptedBy accepted putsOf
  rw [List.map_filterMap]
  congr 1
  funext x
  cases x with
  | lin t c r => cases c <;> cases r <;> rfl
  | _ => rfl

theorem acceptedBy_filter (f : SinkFull.St) (t : Tid) : ((acceptedBy f).filter (·.1 = t)).map (·.2) = acceptedFrom t f := by
  unfold acceptedBy acceptedFrom putsOf
  generalize f.ring.log = l
  induction l with
  | nil => rfl
  | cons x l ih =>
    cases x with
    | lin u c r =>
      cases c <;> cases r <;> simp only [List.filterMap_cons] <;> try exact ih
      by_cases h : u = t
      · subst h; simpa using ih
      · have h' : ¬ t = u := fun e => h e.symm
        simpa [h, h'] using ih
    | inv u c => exact ih
    | ret u r => exact ih

/-- the parts of a list that belong to thread `t` -/
def ofThread (t : Tid) (w : List (Tid × Event)) : List Event := (w.filter (·.1 = t)).map (·.2)

theorem ofThread_prefix (t : Tid) {a b : List (Tid × Event)} (h : a <+: b) : ofThread t a <+: ofThread t b := by
  obtain ⟨c, rfl⟩ := h
  exact ⟨ofThread t c, by simp [ofThread]⟩

/-- **C89**, what is in the file: at every moment the bytes in the generations of the file, on their way to the operating system and in the
stream buffer are the records of some events `w`, each written once and in order, and those of each thread are the beginning of what
that thread addressed to this sink. -/
theorem C89_file_contents (S : Setup) (hS : S.Sound) (s : St) (h : Reach S s) (i : Nat) (ho : (S.leaf i).opened = true)
    (hk : (S.leaf i).conc.isSyslog = false) :
    ∃ w : List (Tid × Event),
      (s.leaf i).gens.flatten ++ (s.leaf i).dev ++ (s.leaf i).sbuf = w.flatMap (fun x => (S.leaf i).conc.render x.2) ∧
      w <+: acceptedBy (s.leaf i) ∧
      ∀ t, ∃ done rest, addressed S t i s.said = done ++ rest ∧ Matches (EventOf (S.leaf i)) (ofThread t w) done := by
  have hr := leaf_reach h i
  rw [ho] at hr
  obtain ⟨h1, _, h3⟩ := SinkFull.C72_exactly_once_in_order _ (hS.room i) _ hr
  rw [← acceptedBy_map] at h1
  have hw : ((acceptedBy (s.leaf i)).take (s.leaf i).written.length).map (·.2) = (s.leaf i).written := by
    obtain ⟨c, hc⟩ := h1
    rw [List.map_take, ← hc, List.take_left]
  refine ⟨(acceptedBy (s.leaf i)).take (s.leaf i).written.length, ?_, List.take_prefix _ _, ?_⟩
  · rw [h3 hk]
    conv => lhs; rw [← hw]
    rw [List.flatMap_map]
  · intro t
    obtain ⟨done, rest, h4, h5⟩ := C89_never_too_much S hS s h t i
    rw [← acceptedBy_filter] at h5
    obtain ⟨c, hc⟩ := ofThread_prefix t (List.take_prefix (s.leaf i).written.length (acceptedBy (s.leaf i)))
    unfold ofThread at hc ⊢
    rw [← hc] at h5
    exact ⟨_, done.drop _ ++ rest, by rw [h4, ← List.append_assoc, List.take_append_drop], h5.split.1⟩

/-- **C89**, what the system logger gets: at every moment the calls of `syslog()` made by a syslog sink are, by their priorities, one for each of
some events `w`, in order (a level without a priority gives no call), and those of each thread are the beginning of what that thread
addressed to this sink.  (What text such a call carries: C54, C70.) -/
theorem C89_syslog_calls (S : Setup) (hS : S.Sound) (s : St) (h : Reach S s) (i : Nat) (ho : (S.leaf i).opened = true)
    (hk : (S.leaf i).conc.isSyslog = true) :
    ∃ w : List (Tid × Event),
      (s.leaf i).calls.map (·.1) = w.filterMap (fun x => syslogPriority x.2.level) ∧
      w <+: acceptedBy (s.leaf i) ∧
      ∀ t, ∃ done rest, addressed S t i s.said = done ++ rest ∧ Matches (EventOf (S.leaf i)) (ofThread t w) done := by
  have hr := leaf_reach h i
  rw [ho] at hr
  obtain ⟨a, ha, hput, _, _, _, _, _, hcalls, _⟩ := SinkFull.C72_same_observations _ true (hS.room i) _ hr
  obtain ⟨es, he1, _, he3, _⟩ := SinkConc.C70_syslog_calls _ a ha hk
  rw [hcalls] at he3
  rw [hput, ← acceptedBy_map] at he1
  have hw : ((acceptedBy (s.leaf i)).take es.length).map (·.2) = es := by
    obtain ⟨c, hc⟩ := he1
    rw [List.map_take, ← hc, List.take_left]
  refine ⟨(acceptedBy (s.leaf i)).take es.length, ?_, List.take_prefix _ _, ?_⟩
  · rw [he3]
    conv => lhs; rw [← hw]
    rw [List.filterMap_map]
    rfl
  · intro t
    obtain ⟨done, rest, h4, h5⟩ := C89_never_too_much S hS s h t i
    rw [← acceptedBy_filter] at h5
    obtain ⟨c, hc⟩ := ofThread_prefix t (List.take_prefix es.length (acceptedBy (s.leaf i)))
    unfold ofThread at hc ⊢
    rw [← hc] at h5
    exact ⟨_, done.drop _ ++ rest, by rw [h4, ← List.append_assoc, List.take_append_drop], h5.split.1⟩

/-- **C89**, what is in the file in the end: when the destructor of a file sink with a worker has returned and no thread is inside a call of a
sink, the generations of the file are exactly the records of events that are, for every thread, the messages it addressed to this sink:
all, in order, each once. -/
theorem C89_file_complete (S : Setup) (hS : S.Sound) (s : St) (h : Reach S s) (i : Nat) (ho : (S.leaf i).opened = true)
    (hk : (S.leaf i).conc.isFile = true) (hl : (S.leaf i).conc.latency0 = false) (d : Tid) (hd : (s.leaf i).owner = some d)
    (hdead : (s.leaf i).pc d = .dead) (hf : ∀ t, Free s t ∨ t = SinkConc.workerTid) :
    ∃ w : List (Tid × Event),
      (s.leaf i).gens.flatten ++ (s.leaf i).dev = w.flatMap (fun x => (S.leaf i).conc.render x.2) ∧ w.map (·.2) = (s.leaf i).written ∧
      ∀ t, t ≠ SinkConc.workerTid → Matches (EventOf (S.leaf i)) (ofThread t w) (addressed S t i s.said) := by
  have hr := leaf_reach h i
  rw [ho] at hr
  obtain ⟨h1, h2⟩ := SinkFull.C72_destructor_writes_all _ (hS.room i) _ hr hl d hd hdead
  refine ⟨acceptedBy (s.leaf i), ?_, by rw [acceptedBy_map, h1], ?_⟩
  · rw [h2 hk, ← acceptedBy_map, List.flatMap_map]
  · intro t ht
    have := C89_delivered_once_in_order S hS s h t ((hf t).resolve_right ht) i
    rw [← acceptedBy_filter] at this
    exact this

/-! ## what is said -/

/-- a log call is made through a logger that exists -/
def LogsExisting (s : System.Conc.St) : System.Conc.PC → Prop
  | .log1 i _ | .log2 i _ | .log3 i | .log4 i => i < s.sys.nloggers
  | _ => True

theorem log_exists {s : System.Conc.St} (h : System.Conc.Reach s) (t : Tid) : LogsExisting s (s.pc t) := by
  induction h generalizing t with
  | init debug ord ho => exact trivial
  | @next s s' h he ih =>
    obtain ⟨u, hm⟩ := exec_moves he
    have hN := hm.named
    have hmono : ∀ p, LogsExisting s p → LogsExisting s' p := by
      intro p hp
      cases p <;> first | exact trivial | exact Nat.lt_of_lt_of_le hp hN.size
    by_cases hu : t = u
    · subst hu
      have hi := ih t
      cases hm with
      | call op fuel v sys' hid hmg hc => simp [System.Conc.St.finish, upd, LogsExisting]
      | failed op fuel sys' hid hmg hc => simp [System.Conc.St.finish, upd, LogsExisting]
      | configuring hid => show LogsExisting _ (s.pc t); rw [hid]; exact trivial
      | makeGroup a hid =>
        simp only [System.Conc.St.goto, upd, System.Conc.Args.start, if_true]
        split <;> exact trivial
      | log i r hid ha =>
        simp only [System.Conc.St.goto, upd, if_true]
        exact ((System.Conc.struct_reach h).wf.live i ha).1
      | flush i hid ha =>
        simp only [System.Conc.St.goto, upd, if_true]
        exact ((System.Conc.struct_reach h).wf.live i ha).1
      | step hid =>
        have key : ∀ p, s.pc t = p → LogsExisting (System.Conc.step s t) ((System.Conc.step s t).pc t) := by
          intro p hp
          rw [hp] at hi
          have hsz : ∀ i, i < s.sys.nloggers → i < (System.Conc.step s t).sys.nloggers := fun i h => Nat.lt_of_lt_of_le h hN.size
          have hpc : (System.Conc.step s t).pc t = .idle ∨ (∃ a p g, (System.Conc.step s t).pc t = .mkInheritSink a p g) ∨
              (∃ a p g, (System.Conc.step s t).pc t = .mkInheritLevel a p g) ∨ (∃ a g, (System.Conc.step s t).pc t = .mkSink a g) ∨
              (∃ a g, (System.Conc.step s t).pc t = .mkLevel a g) ∨ (∃ a g, (System.Conc.step s t).pc t = .mkInsert a g) ∨
              ∃ i, i < s.sys.nloggers ∧ ((∃ r, (System.Conc.step s t).pc t = .log2 i r) ∨ (System.Conc.step s t).pc t = .log3 i ∨
                (System.Conc.step s t).pc t = .log4 i) := by
            unfold System.Conc.step
            cases p <;> rw [hp] <;> dsimp only <;> (repeat' split) <;>
              simp_all [System.Conc.St.finish, System.Conc.St.goto, upd, LogsExisting]
          rcases hpc with e | ⟨_, _, _, e⟩ | ⟨_, _, _, e⟩ | ⟨_, _, e⟩ | ⟨_, _, e⟩ | ⟨_, _, e⟩ | ⟨i, hlt, ⟨_, e⟩ | e | e⟩ <;> rw [e] <;>
            first | exact trivial | exact hsz i hlt
        exact key _ rfl
    · rw [hm.pc_other hu]
      exact hmono _ (ih t)

/-- what a log call pushed: thread, sink, level, format and result of formatting -/
def pushed (S : Setup) : SinkCall → Option (Tid × Nat × Level × Text × FmtResult)
  | .push t k r => some (t, k, r.level, S.format r, S.fmt r)
  | _ => none

/-- **C89**, the history of pushes is what the log calls and the system did: the pushes of log calls, in order, are the calls of
`sink_->push` the loggers made (C77 says when they make them), under the name of an existing logger; the warnings are those of the system. -/
theorem C89_history (S : Setup) (s : St) (h : Reach S s) :
    ((s.said.filter (·.origin = .log)).map fun x => (x.thread, x.sink, x.msg.level, x.msg.format, x.msg.fmt)) = s.sys.out.filterMap (pushed S) ∧
    (∀ x ∈ s.said, x.origin = .log → ∃ i, i < s.sys.sys.nloggers ∧ x.msg.name = (s.sys.sys.lgr i).name) ∧
    ((s.said.filter (·.origin = .warning)).map fun x => (x.sink, x.msg)) =
      s.sys.sys.warned.map fun w => (Whole.warningSink w, warningMsg w) := by
  induction h with
  | init debug ord ho => exact ⟨rfl, (fun x hx => by cases hx), rfl⟩
  | @next s s' h he ih =>
    obtain ⟨h1, h2, h3⟩ := ih
    cases he with
    | leaf j t ch => exact ⟨h1, h2, h3⟩
    | enter t j q rest call ht hd hf hi ho hs => exact ⟨h1, h2, h3⟩
    | destroy t j ht hf hi ho hc hn => exact ⟨h1, h2, h3⟩
    | direct t k d ht hf hi =>
      have e1 : (d.said t k).filter (·.origin = .log) = [] := by cases d <;> simp [Direct.said]
      have e2 : (d.said t k).filter (·.origin = .warning) = [] := by cases d <;> simp [Direct.said]
      refine ⟨?_, ?_, ?_⟩
      · show ((s.said ++ d.said t k).filter _).map _ = _
        rw [List.filter_append, e1, List.append_nil]; exact h1
      · intro x hx
        rcases List.mem_append.1 hx with hx | hx
        · exact h2 x hx
        · cases d with
          | push m => simp [Direct.said] at hx; subst hx; intro e; cases e
          | _ => cases hx
      · show ((s.said ++ d.said t k).filter _).map _ = _
        rw [List.filter_append, e2, List.append_nil]; exact h3
    | system t sys' ht hf hm =>
      have ho : sys'.out.drop s.sys.out.length = newOut s.sys t := by rw [hm.out]; simp
      have hN := hm.named
      obtain ⟨ws, hws⟩ := hN.warned
      have hdrop : sys'.sys.warned.drop s.sys.sys.warned.length = ws := by rw [← hws]; simp
      have hsaid : (s.after S t sys').said = s.said ++ ((newOut s.sys t).flatMap (saidOf S (nameFor s.sys t)) ++ ws.map (warnSaid t)) := by
        rw [← ho, ← hdrop]; rfl
      have f1 : ∀ (n : Text) (l : List SinkCall), (l.flatMap (saidOf S n)).filter (·.origin = .log) = l.flatMap (saidOf S n) := by
        intro n l
        rw [List.filter_eq_self]
        intro x hx
        rw [List.mem_flatMap] at hx
        obtain ⟨c, _, hx⟩ := hx
        cases c with
        | push u k r => simp [saidOf] at hx; subst hx; rfl
        | _ => cases hx
      have f2 : ∀ (n : Text) (l : List SinkCall), (l.flatMap (saidOf S n)).filter (·.origin = .warning) = [] := by
        intro n l
        rw [List.filter_eq_nil_iff]
        intro x hx
        rw [List.mem_flatMap] at hx
        obtain ⟨c, _, hx⟩ := hx
        cases c with
        | push u k r => simp [saidOf] at hx; subst hx; simp
        | _ => cases hx
      have f3 : (ws.map (warnSaid t)).filter (·.origin = .log) = [] := by
        rw [List.filter_eq_nil_iff]
        intro x hx
        rw [List.mem_map] at hx
        obtain ⟨w, _, rfl⟩ := hx
        simp [warnSaid]
      have f4 : (ws.map (warnSaid t)).filter (·.origin = .warning) = ws.map (warnSaid t) := by
        rw [List.filter_eq_self]
        intro x hx
        rw [List.mem_map] at hx
        obtain ⟨w, _, rfl⟩ := hx
        rfl
      have f5 : ∀ (n : Text) (l : List SinkCall), ((l.flatMap (saidOf S n)).map fun x => (x.thread, x.sink, x.msg.level, x.msg.format, x.msg.fmt)) =
          l.filterMap (pushed S) := by
        intro n l
        induction l with
        | nil => rfl
        | cons c l ih =>
          cases c with
          | push u k r => simp [saidOf, pushed, Setup.msg, ← ih]
          | flush u k => exact ih
          | null u => exact ih
      refine ⟨?_, ?_, ?_⟩
      · rw [hsaid, List.filter_append, List.filter_append, f1, f3, List.append_nil, List.map_append, h1, f5]
        show _ = sys'.out.filterMap (pushed S)
        rw [hm.out, List.filterMap_append]
      · rw [hsaid]
        intro x hx hl
        rcases List.mem_append.1 hx with hx | hx
        · obtain ⟨i, hi, hn⟩ := h2 x hx hl
          exact ⟨i, Nat.lt_of_lt_of_le hi hN.size, by rw [hn]; exact (hN.name i hi).symm⟩
        · rcases List.mem_append.1 hx with hx | hx
          · rw [List.mem_flatMap] at hx
            obtain ⟨c, hc, hx⟩ := hx
            cases c with
            | push u k r =>
              simp [saidOf] at hx
              cases hp : s.sys.pc t with
              | log2 j q =>
                have hj := log_exists (sys_reach h) t
                rw [hp] at hj
                refine ⟨j, Nat.lt_of_lt_of_le hj hN.size, ?_⟩
                rw [hx]
                show nameFor s.sys t = _
                unfold nameFor
                rw [hp]
                exact (hN.name j hj).symm
              | log4 j =>
                unfold newOut at hc; rw [hp] at hc
                dsimp only at hc
                split at hc <;> simp at hc
              | _ => unfold newOut at hc; rw [hp] at hc; cases hc
            | _ => cases hx
          · rw [List.mem_map] at hx
            obtain ⟨w, _, rfl⟩ := hx
            cases hl
      · rw [hsaid, List.filter_append, List.filter_append, f2, f4, List.nil_append, List.map_append, h3]
        show _ = sys'.sys.warned.map _
        rw [← hws, List.map_append, List.map_map]
        rfl

/-! ## one log call -/

theorem acceptedFrom_grows {S : Setup} (hS : S.Sound) {s s' : St} (h : Reach S s) (he : Exec S s s') (t : Tid) (i : Nat) :
    acceptedFrom t (s.leaf i) <+: acceptedFrom t (s'.leaf i) := by
  have hsame : ∀ {f : Nat → SinkFull.St} {j : Nat} {g : SinkFull.St}, acceptedFrom t (f j) <+: acceptedFrom t g →
      acceptedFrom t (f i) <+: acceptedFrom t (upd f j g i) := by
    intro f j g hg
    by_cases hj : i = j
    · subst hj; rw [System.upd_same]; exact hg
    · rw [System.upd_other _ _ hj]; exact List.prefix_refl _
  cases he with
  | system u sys' ht hf hm => exact List.prefix_refl _
  | direct u k d ht hf hi => exact List.prefix_refl _
  | destroy u j ht hf hi ho hc hn => exact hsame (List.prefix_refl _)
  | enter u j q rest call ht hd hf hi ho hs => exact hsame (List.prefix_refl _)
  | leaf j u ch =>
    apply hsame
    obtain ⟨put, taken, phase, held, apc, base, _, hR⟩ := SinkFull.refines (hS.room j) (leaf_reach h j)
    have hlog : acceptedFrom t (s.leaf j) <+: putsOf (some t) (Ring.tick (s.leaf j).ring u).log := by
      rw [SinkFull.tick_putsOf hR.inv u t]; exact List.prefix_append _ _
    have hcall : ∀ x, acceptedFrom t (s.leaf j) <+: putsOf (some t) (Ring.call (s.leaf j).ring u x).log := fun x => by
      rw [SinkFull.call_putsOf]; exact List.prefix_refl _
    have hdrop : acceptedFrom t (s.leaf j) <+: putsOf (some t) (SinkFull.dropRef (s.leaf j).ring u).log := by
      rw [SinkFull.drop_putsOf]; exact List.prefix_refl _
    unfold SinkFull.step
    (repeat' split) <;> (try dsimp only) <;> (repeat' split)
    all_goals first
      | exact List.prefix_refl _
      | exact hlog
      | exact hcall _
      | exact hdrop

/-- what thread `t` has pushed -/
def saidBy (t : Tid) (l : List Said) : List Said := l.filter fun x => x.thread = t

theorem saidBy_append (t : Tid) (a b : List Said) : saidBy t (a ++ b) = saidBy t a ++ saidBy t b := by simp [saidBy]

theorem saidBy_other (t : Tid) (l : List Said) (h : ∀ x ∈ l, x.thread ≠ t) : saidBy t l = [] := by
  unfold saidBy
  rw [List.filter_eq_nil_iff]
  intro x hx; simp [h x hx]

theorem saidBy_self (t : Tid) (l : List Said) (h : ∀ x ∈ l, x.thread = t) : saidBy t l = l := by
  unfold saidBy
  rw [List.filter_eq_self]
  intro x hx; simp [h x hx]

theorem addressed_saidBy (S : Setup) (t : Tid) (i : Nat) {a b : List Said} (h : saidBy t a = saidBy t b) :
    addressed S t i a = addressed S t i b := by
  unfold addressed
  unfold saidBy at h
  rw [h]

theorem callsOf_append (t : Tid) (a b : List SinkCall) : callsOf t (a ++ b) = callsOf t a ++ callsOf t b := by
  simp [callsOf]

theorem callsOf_other (t : Tid) (l : List SinkCall) (h : ∀ c ∈ l, c.thread ≠ t) : callsOf t l = [] := by
  unfold callsOf
  rw [List.filter_eq_nil_iff]
  intro c hc; simp [h c hc]

theorem callsOf_self (t : Tid) (l : List SinkCall) (h : ∀ c ∈ l, c.thread = t) : callsOf t l = l := by
  unfold callsOf
  rw [List.filter_eq_self]
  intro c hc; simp [h c hc]

/-- the log call of the whole program, as the logging system sees it -/
structure Seen (S : Setup) (t : Tid) (i : Nat) (r : Rec) (n : Text) (s0 : St) (seen : List System.Sys) (s : St) (o : List SinkCall)
    (σ : System.Conc.St) : Prop where
  during : ∃ seen', System.Conc.During t i r s0.sys seen' σ ∧ ∀ y ∈ seen', y ∈ seen
  pc : s.sys.pc t = σ.pc t
  same : σ.pc t ≠ .idle → s.sys = σ
  calls : callsOf t s.sys.out = callsOf t σ.out
  out : callsOf t s.sys.out = callsOf t s0.sys.out ++ o
  said : saidBy t s.said = saidBy t s0.said ++ o.flatMap (saidOf S n)

theorem step_log_sys {σ : System.Conc.St} {t : Tid} (h : (∃ i r, σ.pc t = .log1 i r) ∨ (∃ i r, σ.pc t = .log2 i r) ∨ (∃ i, σ.pc t = .log3 i) ∨
    ∃ i, σ.pc t = .log4 i) : (System.Conc.step σ t).sys = σ.sys := by
  unfold System.Conc.step
  rcases h with ⟨i, r, h⟩ | ⟨i, r, h⟩ | ⟨i, h⟩ | ⟨i, h⟩ <;> (rw [h]; dsimp only; (repeat' split) <;> rfl)

theorem calling_seen {S : Setup} {t : Tid} {i : Nat} {r : Rec} {s0 s : St} {seen : List System.Sys} (h : Calling S t i r s0 seen s) {n : Text}
    (hn : ∀ y ∈ seen, (y.lgr i).name = n) : ∃ o σ, Seen S t i r n s0 seen s o σ := by
  induction h with
  | start ht hf hi ha =>
    refine ⟨[], s0.sys.goto t (.log1 i r), ⟨_, .start hi ha, fun y hy => hy⟩, rfl, fun _ => rfl, rfl, (List.append_nil _).symm, ?_⟩
    show saidBy t (s0.said ++ (((s0.sys.goto t (.log1 i r)).out.drop s0.sys.out.length).flatMap _ ++
      ((s0.sys.goto t (.log1 i r)).sys.warned.drop s0.sys.sys.warned.length).map _)) = _
    simp [System.Conc.St.goto]
  | @next seen s s' hc hb he ih =>
    obtain ⟨o, σ, hs⟩ := ih (fun y hy => hn y (by simp [hy]))
    have keep : s'.sys = s.sys → saidBy t s'.said = saidBy t s.said → ∃ o σ, Seen S t i r n s0 (seen ++ [s'.sys.sys]) s' o σ := by
      intro e1 e2
      obtain ⟨seen', d1, d2⟩ := hs.during
      exact ⟨o, σ, ⟨seen', d1, fun y hy => by simp [d2 y hy]⟩, by rw [e1]; exact hs.pc, by rw [e1]; exact hs.same,
        by rw [e1]; exact hs.calls, by rw [e1]; exact hs.out, by rw [e2]; exact hs.said⟩
    cases he with
    | leaf j u ch => exact keep rfl rfl
    | enter u j q rest call ht hd hf hi ho hq => exact keep rfl rfl
    | destroy u j ht hf hi ho hcx hnx => exact keep rfl rfl
    | direct u k d ht hf hi =>
      refine keep rfl ?_
      have hu : u ≠ t := by
        rintro rfl
        rcases hb with hb | hb
        · exact hb hi
        · exact hb hf
      show saidBy t (s.said ++ d.said u k) = _
      rw [saidBy_append, saidBy_other t (d.said u k) (fun x hx => by rw [direct_thread u k d x hx]; exact hu), List.append_nil]
    | system u sys' ht hf hm =>
      obtain ⟨xs, x1, x2, _⟩ := new_said (S := S) hm
      by_cases hu : u = t
      · subst hu
        have hne : s.sys.pc u ≠ .idle := by
          intro hi
          rcases hb with hb | hb
          · exact hb hi
          · exact hb hf
        have hσ : s.sys = σ := hs.same (by rw [← hs.pc]; exact hne)
        obtain ⟨seen', d1, d2⟩ := hs.during
        rw [← hσ] at d1
        obtain ⟨o', ho', hinv⟩ := System.Conc.during_inv d1
        have hstep : sys' = System.Conc.step s.sys u := by
          cases hm with
          | step hi => rfl
          | _ => exact absurd ‹s.sys.pc u = _› hne
        have hlog : (∃ i r, s.sys.pc u = .log1 i r) ∨ (∃ i r, s.sys.pc u = .log2 i r) ∨ (∃ i, s.sys.pc u = .log3 i) ∨
            ∃ i, s.sys.pc u = .log4 i := by
          cases hp : s.sys.pc u with
          | idle => exact absurd hp hne
          | log1 j q => exact .inl ⟨j, q, rfl⟩
          | log2 j q => exact .inr (.inl ⟨j, q, rfl⟩)
          | log3 j => exact .inr (.inr (.inl ⟨j, rfl⟩))
          | log4 j => exact .inr (.inr (.inr ⟨j, rfl⟩))
          | _ => rw [hp] at hinv; exact absurd hinv id
        have hsys : sys'.sys = s.sys.sys := by rw [hstep]; exact step_log_sys hlog
        have hout : callsOf u sys'.out = callsOf u s.sys.out ++ newOut s.sys u := by
          rw [hm.out, callsOf_append, callsOf_self u (newOut s.sys u) (newOut_thread s.sys u)]
        have hname : (newOut s.sys u).flatMap (saidOf S (nameFor s.sys u)) = (newOut s.sys u).flatMap (saidOf S n) := by
          cases hp : s.sys.pc u with
          | log2 j q =>
            rw [hp] at hinv
            obtain ⟨rfl, _, _⟩ := hinv
            have hmem : s.sys.sys ∈ seen := d2 _ d1.last
            have : nameFor s.sys u = n := by
              unfold nameFor; rw [hp]; exact hn _ (by simp [hmem])
            rw [this]
          | log4 j =>
            unfold newOut; rw [hp]; dsimp only
            split <;> rfl
          | _ => unfold newOut; rw [hp]; rfl
        refine ⟨o ++ newOut s.sys u, sys', ⟨seen' ++ [sys'.sys], ?_, ?_⟩, rfl, fun _ => rfl, rfl, ?_, ?_⟩
        · exact .next d1 hne hm.exec
        · intro y hy
          rw [List.mem_append] at hy ⊢
          rcases hy with hy | hy
          · exact .inl (d2 y hy)
          · exact .inr hy
        · show callsOf u sys'.out = _
          rw [hout, hs.out, List.append_assoc]
        · show saidBy u (s.said ++ ((sys'.out.drop s.sys.out.length).flatMap (saidOf S (nameFor s.sys u)) ++
            (sys'.sys.warned.drop s.sys.sys.warned.length).map (warnSaid u))) = _
          have ho : sys'.out.drop s.sys.out.length = newOut s.sys u := by rw [hm.out]; simp
          rw [hsys, ho, List.drop_length, List.map_nil, List.append_nil, saidBy_append, hs.said, hname,
            saidBy_self u _ (saidOf_thread S u n _ (newOut_thread s.sys u)), List.flatMap_append, List.append_assoc]
      · have hpc : sys'.pc t = s.sys.pc t := hm.pc_other (fun e => hu e.symm)
        have hcalls : callsOf t sys'.out = callsOf t s.sys.out := by
          rw [hm.out, callsOf_append, callsOf_other t (newOut s.sys u) (fun c hc => by rw [newOut_thread s.sys u c hc]; exact hu), List.append_nil]
        have hsaid : saidBy t (s.after S u sys').said = saidBy t s.said := by
          rw [x1, saidBy_append, saidBy_other t xs (fun x hx => by rw [x2 x hx]; exact hu), List.append_nil]
        obtain ⟨seen', d1, d2⟩ := hs.during
        by_cases hne : σ.pc t = .idle
        · exact ⟨o, σ, ⟨seen', d1, fun y hy => by simp [d2 y hy]⟩, by rw [← hs.pc]; exact hpc, fun h => absurd hne h,
            by rw [← hs.calls]; exact hcalls, by rw [← hs.out]; exact hcalls, by rw [hsaid]; exact hs.said⟩
        · have hσ : s.sys = σ := hs.same hne
          rw [← hσ] at d1 hne
          refine ⟨o, sys', ⟨seen' ++ [sys'.sys], .next d1 hne hm.exec, ?_⟩, rfl, fun _ => rfl, rfl, ?_, by rw [hsaid]; exact hs.said⟩
          · intro y hy
            rw [List.mem_append] at hy ⊢
            rcases hy with hy | hy
            · exact .inl (d2 y hy)
            · exact .inr hy
          · rw [← hs.out]; exact hcalls

theorem calling_reach {S : Setup} {t : Tid} {i : Nat} {r : Rec} {s0 s : St} {seen : List System.Sys} (h : Calling S t i r s0 seen s)
    (h0 : Reach S s0) : Reach S s := by
  induction h with
  | start ht hf hi ha => exact .next h0 (.system s0 t _ ht hf (.log s0.sys i r hi ha))
  | next _ _ he ih => exact .next ih he

theorem calling_exists {S : Setup} {t : Tid} {i : Nat} {r : Rec} {s0 s : St} {seen : List System.Sys} (h : Calling S t i r s0 seen s)
    (h0 : Reach S s0) : i < s0.sys.sys.nloggers := by
  induction h with
  | start ht hf hi ha => exact ((System.Conc.struct_reach (sys_reach h0)).wf.live i ha).1
  | next hc _ he ih => exact ih

theorem Named.trans {a b c : System.Sys} (h : Named a b) (h' : Named b c) : Named a c :=
  ⟨Nat.le_trans h.size h'.size, fun i hi => (h'.name i (Nat.lt_of_lt_of_le hi h.size)).trans (h.name i hi), h.warned.trans h'.warned⟩

theorem exec_named {S : Setup} {s s' : St} (h : Exec S s s') : Named s.sys.sys s'.sys.sys := by
  cases h with
  | system t sys' ht hf hm => exact hm.named
  | _ => exact .refl _

theorem calling_named {S : Setup} {t : Tid} {i : Nat} {r : Rec} {s0 s : St} {seen : List System.Sys} (h : Calling S t i r s0 seen s)
    (h0 : Reach S s0) : Named s0.sys.sys s.sys.sys ∧ ∀ y ∈ seen, (y.lgr i).name = (s0.sys.sys.lgr i).name := by
  induction h with
  | start ht hf hi ha => exact ⟨.refl _, fun y hy => by rw [List.mem_singleton.1 hy]⟩
  | @next seen s s' hc hb he ih =>
    have hn := ih.1.trans (exec_named he)
    refine ⟨hn, fun y hy => ?_⟩
    rw [List.mem_append, List.mem_singleton] at hy
    rcases hy with hy | rfl
    · exact ih.2 y hy
    · exact hn.name i (calling_exists hc h0)

theorem calling_grows {S : Setup} (hS : S.Sound) {t : Tid} {i : Nat} {r : Rec} {s0 s : St} {seen : List System.Sys}
    (h : Calling S t i r s0 seen s) (h0 : Reach S s0) (j : Nat) : acceptedFrom t (s0.leaf j) <+: acceptedFrom t (s.leaf j) := by
  induction h with
  | start ht hf hi ha => exact List.prefix_refl _
  | next hc _ he ih => exact ih.trans (acceptedFrom_grows hS (calling_reach hc h0) he t j)

theorem calling_free {S : Setup} {t : Tid} {i : Nat} {r : Rec} {s0 s : St} {seen : List System.Sys}
    (h : Calling S t i r s0 seen s) : Free s0 t := by
  induction h with
  | start ht hf hi ha => exact hf
  | next hc _ he ih => exact ih

theorem Matches.replicate {α β : Type} {rel : α → β → Prop} {as : List α} {k : Nat} {b : β} (h : Matches rel as (List.replicate k b)) :
    as.length = k ∧ ∀ a ∈ as, rel a b := by
  induction as generalizing k with
  | nil => cases k with
    | zero => exact ⟨rfl, fun a ha => nomatch ha⟩
    | succ k => rw [List.replicate_succ] at h; cases h
  | cons a as ih => cases k with
    | zero => cases h
    | succ k =>
      rw [List.replicate_succ] at h
      cases h with
      | cons hr h =>
        obtain ⟨h1, h2⟩ := ih h
        refine ⟨by simp [h1], ?_⟩
        intro x hx
        rcases List.mem_cons.1 hx with rfl | hx
        · exact hr
        · exact h2 x hx

theorem expected_thread (t : Tid) (l : Level) (k : Nat) (r : Rec) : ∀ c ∈ expected t l (some k) r, c.thread = t := by
  unfold expected
  by_cases hp : passes l r
  · by_cases hc : Level.critical ≤ l
    · simp [hp, hc, SinkCall.thread]
    · simp [hp, hc, SinkCall.thread]
  · simp [hp]

/-- **C89**, one log call, while other threads do anything else: if level and sink of the logger do not change during the call (C77),
then between call and return each queue-owning sink has accepted from this thread exactly as many new events as there are paths of
admitting filters from the logger's sink to it -- none if the logger's level does not pass the message --, and each of them is the event of this
message. -/
theorem C89_log_call (S : Setup) (hS : S.Sound) (s0 s : St) (h0 : Reach S s0) (t : Tid) (i : Nat) (r : Rec) (seen : List System.Sys)
    (h : Calling S t i r s0 seen s) (hret : ¬ Busy s t) (l : Level) (k : Nat)
    (hl : ∀ y ∈ seen, (y.lgr i).level = l ∧ (y.lgr i).sink = some k) (j : Nat) :
    ∃ new, acceptedFrom t (s.leaf j) = acceptedFrom t (s0.leaf j) ++ new ∧
      new.length = (if passes l r then deliveries (S.snk k) S.level r.level j else 0) ∧
      ∀ e ∈ new, EventOf (S.leaf j) e (S.msg (s0.sys.sys.lgr i).name r) := by
  generalize hn : (s0.sys.sys.lgr i).name = n
  obtain ⟨o, σ, hs⟩ := calling_seen h (fun y hy => hn ▸ (calling_named h h0).2 y hy)
  have hfree : Free s t := Classical.byContradiction fun e => hret (.inr e)
  have hidle : s.sys.pc t = .idle := Classical.byContradiction fun e => hret (.inl e)
  obtain ⟨seen', d1, d2⟩ := hs.during
  have hexp := System.Conc.C77_unchanged_partial d1 (by rw [← hs.pc]; exact hidle) (l := l) (k := some k)
    (fun y hy => ⟨(hl y (d2 y hy)).1, (hl y (d2 y hy)).2⟩)
  have ho : o = expected t l (some k) r := by
    have := hs.out
    rw [hs.calls, hexp] at this
    exact (List.append_cancel_left this).symm
  have haddr : addressed S t j s.said = addressed S t j s0.said ++
      List.replicate (if passes l r then deliveries (S.snk k) S.level r.level j else 0) (S.msg n r) := by
    rw [addressed_saidBy S t j (b := s0.said ++ o.flatMap (saidOf S n)), addressed_append]
    · congr 1
      rw [ho]
      unfold expected
      by_cases hp : passes l r
      · rw [if_pos hp, if_pos hp]
        have : (SinkCall.push t k r :: if Level.critical ≤ l then [SinkCall.flush t k] else []).flatMap (saidOf S n) =
            [⟨t, .log, k, S.msg n r⟩] := by split <;> rfl
        rw [this, addressed_one S t j ⟨t, .log, k, S.msg n r⟩ rfl]
        rfl
      · rw [if_neg hp, if_neg hp]; rfl
    · rw [saidBy_append, hs.said]
      congr 1
      rw [saidBy_self]
      rw [ho]
      exact saidOf_thread S t n _ (expected_thread t l k r)
  have hm0 := C89_delivered_once_in_order S hS s0 h0 t (calling_free h) j
  have hm := C89_delivered_once_in_order S hS s (calling_reach h h0) t hfree j
  obtain ⟨new, hnew⟩ := calling_grows hS h h0 j
  rw [haddr, ← hnew] at hm
  obtain ⟨_, hm2⟩ := hm.split
  rw [hm0.length_eq, List.drop_left] at hm2
  exact ⟨new, hnew.symm, hm2.replicate.1, hm2.replicate.2⟩

/-! ## a concrete program

Sinks: number 1 (`s`) is a multisink of level info over the file 0 and the syslog sink 1, number 2 (`t`) is the file 0 (level debug); sink 1 has
level warn.
Logger `x` has the level debug and the sink `s`.  Two threads log at the same time, a third one moves another group meanwhile. -/

inductive Act where
  | sys (a : System.Conc.Act)
  | enter (t : Tid)
  | leaf (i : Nat) (t : Tid) (n : Nat)
  | destroy (t : Tid) (i : Nat)

def exampleSnk : Nat → Sink.Snk
  | 1 => .multi .info [.leaf 0, .leaf 1]
  | 3 => .multi .info [.leaf 0, .leaf 0]
  | _ => .leaf 0

def exampleLeaf : Nat → LeafCfg
  | 1 => ⟨SinkFull.cfg2 .syslog false, .warn, .none, 10, true⟩
  | _ => ⟨SinkFull.cfg2 .file false, .debug, .none, 3, true⟩

def exampleSetup : Setup := ⟨exampleSnk, exampleLeaf, fun r => r.text, fun r => .ok r.text⟩

theorem example_sound : exampleSetup.Sound := by
  constructor
  · intro k
    show Full (exampleSnk k)
    unfold exampleSnk
    split
    · exact ⟨by simp, trivial, trivial, trivial⟩
    · exact ⟨by simp, trivial, trivial, trivial⟩
    · exact trivial
  · intro i
    show 0 < (exampleLeaf i).conc.capacity
    unfold exampleLeaf
    split <;> decide

instance (p : SinkFull.PC) : Decidable (quiet p) := inferInstanceAs (Decidable (_ ∨ _))

def freeNow (s : St) (t : Tid) : Bool := decide (s.todo t = [] ∧ quiet ((s.leaf 0).pc t) ∧ quiet ((s.leaf 1).pc t))

/-- only the sinks 0 and 1 and the threads 1, 2 and 3 are used -/
structure Tail (s : St) : Prop where
  file : ∀ j, 2 ≤ j → ∀ t, t ≠ SinkConc.workerTid → (s.leaf j).pc t = .idle
  thread : ∀ j t, 4 ≤ t → (s.leaf j).pc t = .idle
  todo : ∀ t, 4 ≤ t → s.todo t = []

def callAt (i : Nat) : Req → SinkConc.Call
  | .push m => .push (mkEvent ⟨7, 1, []⟩ .none (exampleLeaf i).maxLen m)
  | .flush => .flush
  | .asyncFlush => .asyncFlush
  | .rotate => .rotate

theorem callAt_serves (i : Nat) (q : Req) : Serves (exampleSetup.leaf i) q (callAt i q) := by
  cases q with
  | push m =>
    have h : (exampleLeaf i).ti = .none := by unfold exampleLeaf; split <;> rfl
    have := Serves.push (c := exampleLeaf i) m ⟨7, 1, []⟩
    rw [h] at this
    exact this
  | flush => exact .flush
  | asyncFlush => exact .asyncFlush
  | rotate => exact .rotate

def act (s : St) : Act → Option St
  | .sys a =>
    if a.thread ≠ SinkConc.workerTid ∧ a.thread < 4 ∧ freeNow s a.thread = true then
      (System.Conc.act s.sys a).map (s.after exampleSetup a.thread) else none
  | .enter t =>
    match s.todo t with
    | [] => none
    | (i, q) :: rest =>
      if t ≠ SinkConc.workerTid ∧ t < 4 ∧ i < 2 ∧ (s.leaf 0).pc t = .idle ∧ (s.leaf 1).pc t = .idle ∧ (s.leaf i).owner.isNone then
        some { s with todo := upd s.todo t rest, leaf := upd s.leaf i (SinkFull.setPc (s.leaf i) t (SinkFull.startPC (callAt i q))) }
      else none
  | .leaf i t n =>
    if i < 2 ∧ t < 4 then some { s with leaf := upd s.leaf i (SinkFull.runN (exampleSetup.leaf i).conc t n (s.leaf i)) } else none
  | .destroy t i =>
    if t ≠ SinkConc.workerTid ∧ t < 4 ∧ i < 2 ∧ freeNow s t = true ∧ s.sys.pc t = .idle ∧ (s.leaf i).owner.isNone ∧
        (∀ u : Nat, u < 4 → u = SinkConc.workerTid ∨ (s.leaf i).pc u = .idle) ∧ (∀ u : Nat, u < 4 → s.todo u = []) then
      some { s with leaf := upd s.leaf i (SinkFull.setPc { s.leaf i with owner := some t } t .dStart) }
    else none

theorem act_moves {s s' : System.Conc.St} {a : System.Conc.Act} (h : System.Conc.act s a = some s') : Moves a.thread s s' := by
  cases a with
  | call t op =>
    simp only [System.Conc.act] at h
    split at h
    · rename_i hc
      split at h
      · rename_i v y hs; cases h; exact .call s op 20 v y hc.1 hc.2 hs
      · rename_i y hs; cases h; exact .failed s op 20 y hc.1 hc.2 hs
      · cases h
    · cases h
  | configuring t => simp only [System.Conc.act] at h; split at h <;> cases h; exact .configuring s (by assumption)
  | mk t a => simp only [System.Conc.act] at h; split at h <;> cases h; exact .makeGroup s a (by assumption)
  | log t i r => simp only [System.Conc.act] at h; split at h <;> cases h; rename_i hc; exact .log s i r hc.1 hc.2
  | flush t i => simp only [System.Conc.act] at h; split at h <;> cases h; rename_i hc; exact .flush s i hc.1 hc.2
  | step t => simp only [System.Conc.act] at h; split at h <;> cases h; exact .step s (by assumption)

theorem freeNow_free {s : St} (ht : Tail s) {t : Tid} (hw : t ≠ SinkConc.workerTid) (h : freeNow s t = true) : Free s t := by
  obtain ⟨h1, h2, h3⟩ := of_decide_eq_true h
  refine ⟨h1, fun i => ?_⟩
  by_cases h0 : i = 0
  · rw [h0]; exact h2
  · by_cases h1 : i = 1
    · rw [h1]; exact h3
    · exact .inl (ht.file i (by omega) t hw)

inductive Execs (S : Setup) : St → St → Prop
  | refl (s : St) : Execs S s s
  | more {s m s' : St} : Exec S s m → Execs S m s' → Execs S s s'

theorem Execs.trans {S : Setup} {a b c : St} (h : Execs S a b) (h' : Execs S b c) : Execs S a c := by
  induction h with
  | refl => exact h'
  | more e _ ih => exact .more e (ih h')

theorem Execs.reach {S : Setup} {a b : St} (h : Execs S a b) (hr : Reach S a) : Reach S b := by
  induction h with
  | refl => exact hr
  | more e _ ih => exact ih (.next hr e)

theorem runN_execs {s : St} {i : Nat} {t : Tid} {n : Nat} :
    Execs exampleSetup s { s with leaf := upd s.leaf i (SinkFull.runN (exampleSetup.leaf i).conc t n (s.leaf i)) } := by
  induction n generalizing s with
  | zero =>
    have : { s with leaf := upd s.leaf i (SinkFull.runN (exampleSetup.leaf i).conc t 0 (s.leaf i)) } = s := by
      have : upd s.leaf i (s.leaf i) = s.leaf := SinkFull.upd_self s.leaf i
      cases s; simp only [SinkFull.runN] at *; rw [this]
    rw [this]; exact .refl _
  | succ n ih =>
    refine .more (.leaf s i t SinkConc.calmCh) ?_
    have := ih (s := { s with leaf := upd s.leaf i (SinkFull.step (exampleSetup.leaf i).conc (s.leaf i) t SinkConc.calmCh) })
    simp only [System.upd_same, System.upd_upd] at this
    exact this

theorem leaf_step_pc (c : SinkConc.Cfg) (s : SinkFull.St) (t : Tid) (ch : SinkConc.Ch) (u : Tid) (h : u ≠ t) :
    (SinkFull.step c s t ch).pc u = s.pc u := by
  unfold SinkFull.step
  cases hp : s.pc t <;> dsimp only <;> (repeat' split) <;> simp [SinkFull.setPc, upd, h]

theorem runN_other {c : SinkConc.Cfg} {t u : Tid} (h : u ≠ t) (n : Nat) (f : SinkFull.St) :
    (SinkFull.runN c t n f).pc u = f.pc u := by
  induction n generalizing f with
  | zero => rfl
  | succ n ih => exact (ih _).trans (leaf_step_pc _ _ _ _ _ h)

/-- one step of the model -/
def Act.single : Act → Bool
  | .leaf _ _ n => n == 1
  | _ => true

theorem act_execs {s s' : St} {a : Act} (ht : Tail s) (h : act s a = some s') :
    (Execs exampleSetup s s' ∧ (a.single = true → Exec exampleSetup s s')) ∧ Tail s' := by
  have one : ∀ {x}, Exec exampleSetup s x → Execs exampleSetup s x ∧ (a.single = true → Exec exampleSetup s x) :=
    fun e => ⟨.more e (.refl _), fun _ => e⟩
  cases a with
  | sys a =>
    simp only [act] at h
    split at h
    · rename_i hc
      rw [Option.map_eq_some_iff] at h
      obtain ⟨y, hy, rfl⟩ := h
      refine ⟨one (.system s _ y hc.1 (freeNow_free ht hc.1 hc.2.2) (act_moves hy)), ⟨ht.file, ht.thread, ?_⟩⟩
      intro u hu
      show upd s.todo a.thread _ u = _
      rw [System.upd_other _ _ (by have := hc.2.1; intro e; subst e; exact absurd hu (Nat.not_le.2 this))]
      exact ht.todo u hu
    · cases h
  | enter t =>
    simp only [act] at h
    split at h
    · cases h
    · rename_i i q rest hd
      split at h
      · rename_i hc
        cases h
        have h4 := hc.2.1
        have h2 := hc.2.2.1
        have hq : ∀ j, quiet ((s.leaf j).pc t) := by
          intro j
          by_cases h0 : j = 0
          · rw [h0]; exact .inl hc.2.2.2.1
          · by_cases h1 : j = 1
            · rw [h1]; exact .inl hc.2.2.2.2.1
            · exact .inl (ht.file j (by omega) t hc.1)
        have hi : (s.leaf i).pc t = .idle := by
          by_cases h0 : i = 0
          · rw [h0]; exact hc.2.2.2.1
          · have h1 : i = 1 := by omega
            rw [h1]; exact hc.2.2.2.2.1
        refine ⟨one (.enter s t i q rest _ hc.1 hd hq hi (by simpa using hc.2.2.2.2.2) (callAt_serves i q)), ⟨?_, ?_, ?_⟩⟩
        · intro j hj u hu
          show (upd s.leaf i _ j).pc u = _
          rw [System.upd_other _ _ (by omega)]
          exact ht.file j hj u hu
        · intro j u hu
          have hne : u ≠ t := fun e => Nat.not_le.2 h4 (e ▸ hu)
          show (upd s.leaf i _ j).pc u = _
          by_cases hj : j = i
          · subst hj
            rw [System.upd_same]
            show upd (s.leaf j).pc t _ u = _
            rw [System.upd_other _ _ hne]
            exact ht.thread j u hu
          · rw [System.upd_other _ _ hj]; exact ht.thread j u hu
        · intro u hu
          have hne : u ≠ t := fun e => Nat.not_le.2 h4 (e ▸ hu)
          show upd s.todo t _ u = _
          rw [System.upd_other _ _ hne]
          exact ht.todo u hu
      · cases h
  | leaf i t n =>
    simp only [act] at h
    split at h
    · rename_i hc
      cases h
      refine ⟨⟨runN_execs, fun hn => ?_⟩, ⟨?_, ?_, ht.todo⟩⟩
      · obtain rfl : n = 1 := by simpa [Act.single] using hn
        exact .leaf s i t SinkConc.calmCh
      · intro j hj u hu
        show (upd s.leaf i _ j).pc u = _
        rw [System.upd_other _ _ (by omega)]
        exact ht.file j hj u hu
      · intro j u hu
        have hne : u ≠ t := fun e => Nat.not_le.2 hc.2 (e ▸ hu)
        show (upd s.leaf i _ j).pc u = _
        by_cases hj : j = i
        · subst hj
          rw [System.upd_same, runN_other hne]
          exact ht.thread j u hu
        · rw [System.upd_other _ _ hj]; exact ht.thread j u hu
    · cases h
  | destroy t i =>
    simp only [act] at h
    split at h
    · rename_i hc
      cases h
      obtain ⟨c1, c2, c3, c4, c5, c6, c7, c8⟩ := hc
      refine ⟨one (.destroy s t i c1 (freeNow_free ht c1 c4) c5 (by simpa using c6) ?_ ?_), ⟨?_, ?_, ht.todo⟩⟩
      · intro u hu
        by_cases hlt : u < 4
        · exact (c7 u hlt).resolve_left hu
        · exact ht.thread i u (Nat.not_lt.1 hlt)
      · intro u q hq
        by_cases hlt : u < 4
        · rw [c8 u hlt] at hq; cases hq
        · rw [ht.todo u (Nat.not_lt.1 hlt)] at hq; cases hq
      · intro j hj u hu
        show (upd s.leaf i _ j).pc u = _
        rw [System.upd_other _ _ (by omega)]
        exact ht.file j hj u hu
      · intro j u hu
        have hne : u ≠ t := fun e => Nat.not_le.2 c2 (e ▸ hu)
        show (upd s.leaf i _ j).pc u = _
        by_cases hj : j = i
        · subst hj
          rw [System.upd_same]
          show upd (s.leaf j).pc t _ u = _
          rw [System.upd_other _ _ hne]
          exact ht.thread j u hu
        · rw [System.upd_other _ _ hj]; exact ht.thread j u hu
    · cases h

def run : List Act → St → Option St
  | [], s => some s
  | a :: as, s => (act s a).bind (run as)

theorem run_execs {as : List Act} {s s' : St} (ht : Tail s) (h : run as s = some s') : Execs exampleSetup s s' ∧ Tail s' := by
  induction as generalizing s with
  | nil => cases h; exact ⟨.refl _, ht⟩
  | cons a as ih =>
    simp only [run] at h
    cases ha : act s a with
    | none => rw [ha] at h; cases h
    | some s1 =>
      rw [ha] at h
      obtain ⟨⟨h1, _⟩, h2⟩ := act_execs ht ha
      obtain ⟨h3, h4⟩ := ih h2 h
      exact ⟨h1.trans h3, h4⟩

def initial : St := init exampleSetup true id

theorem initial_reach : Reach exampleSetup initial := .init true id fun _ => .refl _
theorem initial_tail : Tail initial := by
  refine ⟨?_, ?_, fun _ _ => rfl⟩
  · intro j hj t ht
    show (SinkFull.init _ _).pc t = _
    simp [SinkFull.init, ht]
  · intro j t ht
    have hw : t ≠ SinkConc.workerTid := fun e => by rw [e] at ht; exact absurd ht (by decide)
    show (SinkFull.init _ _).pc t = _
    simp [SinkFull.init, hw]

def aWarn : Rec := ⟨.warn, ['h', 'e', 'l', 'l', 'o']⟩
def anInfo : Rec := ⟨.info, ['w', 'o', 'r', 'l', 'd']⟩

/-- the logger exists -/
def prepared : Option St := run (System.Conc.logActs.map .sys) initial

/-- Thread 1 logs a warning, thread 2 an information; they are inside the queue of file 0 at the same time; thread 3 changes the level of
another group meanwhile; then both calls go on to their ends. -/
def both : List Act :=
  [.sys (.log 1 0 aWarn), .sys (.log 2 0 anInfo), .sys (.step 1), .sys (.step 2), .sys (.step 1), .sys (.step 2),
   .enter 1, .enter 2, .leaf 0 1 3, .leaf 0 2 3, .leaf 0 1 4, .leaf 0 2 5, .sys (.call 3 (.setLevelOfGroup ['q'] .off)),
   .leaf 0 1 20, .leaf 0 2 20, .enter 1, .leaf 1 1 30, .sys (.step 1), .sys (.step 2)]

def ends : List Act :=
  [.sys (.step 1), .sys (.step 2), .enter 1, .leaf 0 1 2, .enter 1, .leaf 1 1 2, .enter 1, .leaf 0 1 40, .enter 1, .leaf 1 1 40,
   .enter 2, .leaf 0 2 2, .enter 2, .leaf 1 2 2, .enter 2, .leaf 0 2 40, .enter 2, .leaf 1 2 40]

def finished : Option St := prepared.bind (run (both ++ ends))

theorem finished_some : finished.isSome = true := by decide +kernel

def final : St := finished.get finished_some

theorem final_eq : finished = some final := (Option.some_get _).symm

theorem final_run : Execs exampleSetup initial final ∧ Tail final := by
  have h := final_eq
  unfold finished at h
  rw [Option.bind_eq_some_iff] at h
  obtain ⟨s, h1, h2⟩ := h
  obtain ⟨e1, t1⟩ := run_execs initial_tail h1
  obtain ⟨e2, t2⟩ := run_execs t1 h2
  exact ⟨e1.trans e2, t2⟩

/-- the warning is in both sinks (cut to the limit of file 0), the information in file 0 only: sink 1 does not admit it -/
example : (accepted (final.leaf 0)).map (·.message) = [['h', 'e', 'l'], ['w', 'o', 'r']] ∧
    (accepted (final.leaf 1)).map (·.message) = [['h', 'e', 'l', 'l', 'o']] ∧
    addressed exampleSetup 1 1 final.said = [⟨['x'], .warn, ['h', 'e', 'l', 'l', 'o'], .ok ['h', 'e', 'l', 'l', 'o']⟩] ∧
    addressed exampleSetup 2 1 final.said = [] ∧ (final.leaf 0).dev = ['h', 'e', 'l', '\n', 'w', 'o', 'r', '\n'] ∧
    (final.leaf 1).calls = [(4, ['h', 'e', 'l', 'l', 'o'])] := by
  decide +kernel

/-- the hypotheses of the theorems above: everybody has returned -/
example : exampleSetup.Sound ∧ Reach exampleSetup final ∧ Free final 1 ∧ Free final 2 ∧ ¬ Busy final 1 :=
  have hf : Free final 1 := freeNow_free final_run.2 (by decide) (by decide +kernel)
  ⟨example_sound, final_run.1.reach initial_reach, hf, freeNow_free final_run.2 (by decide) (by decide +kernel),
    fun h => h.elim (fun h => h (by decide +kernel)) (fun h => h hf)⟩

/-! the end: thread 3 destroys file 0, whose worker writes what is left -/

def closing : List Act := [.sys (.log 1 0 aWarn), .sys (.step 1), .sys (.step 1), .enter 1, .leaf 0 1 40, .enter 1, .leaf 1 1 40,
  .destroy 3 0, .leaf 0 3 3, .leaf 0 0 40, .leaf 0 3 40]

def closed : Option St := finished.bind (run closing)

theorem closed_some : closed.isSome = true := by decide +kernel

def shut : St := closed.get closed_some

theorem shut_run : Execs exampleSetup initial shut ∧ Tail shut := by
  have h : closed = some shut := (Option.some_get _).symm
  unfold closed at h
  rw [final_eq, Option.bind_eq_some_iff] at h
  obtain ⟨s, h1, h2⟩ := h
  obtain rfl := Option.some.inj h1
  obtain ⟨e2, t2⟩ := run_execs final_run.2 h2
  exact ⟨final_run.1.trans e2, t2⟩

/-- the hypotheses of `C89_file_complete`: the destructor of file 0 has returned, nobody is inside a sink; the message that had only been
queued is in the file -/
example : Reach exampleSetup shut ∧ (shut.leaf 0).owner = some 3 ∧ (shut.leaf 0).pc 3 = .dead ∧ (∀ t, Free shut t ∨ t = SinkConc.workerTid) ∧
    (final.leaf 0).dev.length = 8 ∧ (shut.leaf 0).dev = ['h', 'e', 'l', '\n', 'w', 'o', 'r', '\n', 'h', 'e', 'l', '\n'] := by
  refine ⟨shut_run.1.reach initial_reach, by decide +kernel, by decide +kernel, ?_, by decide +kernel, by decide +kernel⟩
  intro t
  by_cases hw : t = SinkConc.workerTid
  · exact .inr hw
  · refine .inl ?_
    by_cases h1 : t = 1
    · subst h1; exact freeNow_free shut_run.2 (by decide) (by decide +kernel)
    · by_cases h2 : t = 2
      · subst h2; exact freeNow_free shut_run.2 (by decide) (by decide +kernel)
      · by_cases h3 : t = 3
        · subst h3; exact freeNow_free shut_run.2 (by decide) (by decide +kernel)
        · have key : ∀ n : Nat, n ≠ 0 → n ≠ 1 → n ≠ 2 → n ≠ 3 → 4 ≤ n := by intro n; omega
          have h4 : 4 ≤ t := key t hw h1 h2 h3
          exact ⟨shut_run.2.todo t h4, fun i => .inl (shut_run.2.thread i t h4)⟩

/-! a log call of thread 1, from its beginning to its end, while thread 2 logs too -/

def idleNow (p : System.Conc.PC) : Bool := match p with
  | .idle => true
  | _ => false

def busyNow (s : St) (t : Tid) : Bool := !idleNow (s.sys.pc t) || !freeNow s t

theorem busyNow_busy {s : St} {t : Tid} (h : busyNow s t = true) : Busy s t := by
  unfold busyNow at h
  rw [Bool.or_eq_true] at h
  rcases h with h | h
  · refine .inl fun e => ?_
    rw [e] at h
    cases h
  · refine .inr fun hf => ?_
    have : freeNow s t = true := decide_eq_true ⟨hf.1, hf.2 0, hf.2 1⟩
    rw [this] at h
    cases h

/-- single steps while thread `t` is busy; the states of the logging system are collected -/
def watch (t : Tid) : List Act → List System.Sys × St → Option (List System.Sys × St)
  | [], x => some x
  | a :: as, x =>
    if a.single = true ∧ busyNow x.2 t = true then (act x.2 a).bind fun s => watch t as (x.1 ++ [s.sys.sys], s) else none

theorem watch_calling {t : Tid} {i : Nat} {r : Rec} {s0 : St} {as : List Act} {x y : List System.Sys × St} (ht : Tail x.2)
    (hx : Calling exampleSetup t i r s0 x.1 x.2) (h : watch t as x = some y) : Calling exampleSetup t i r s0 y.1 y.2 ∧ Tail y.2 := by
  induction as generalizing x with
  | nil => cases h; exact ⟨hx, ht⟩
  | cons a as ih =>
    simp only [watch] at h
    split at h
    · rename_i hc
      cases ha : act x.2 a with
      | none => rw [ha] at h; cases h
      | some s1 =>
        rw [ha] at h
        obtain ⟨⟨_, h1⟩, h2⟩ := act_execs ht ha
        exact ih (x := (x.1 ++ [s1.sys.sys], s1)) h2 (.next hx (busyNow_busy hc.2) (h1 hc.1)) h
    · cases h

def ready : Option St := prepared

theorem ready_some : ready.isSome = true := by decide +kernel

def before : St := ready.get ready_some

theorem before_run : Execs exampleSetup initial before ∧ Tail before :=
  run_execs initial_tail (show ready = some before from (Option.some_get _).symm)

/-- thread 1 has called the logger with the warning -/
def called : St := before.after exampleSetup 1 (before.sys.goto 1 (.log1 0 aWarn))

def many (n : Nat) (i : Nat) (t : Tid) : List Act := List.replicate n (.leaf i t 1)

/-- the warning is put into the queues of both sinks, flushed, written; thread 2 starts to log meanwhile and enters the queue of file 0 -/
def during : List Act :=
  [.sys (.step 1), .sys (.step 1), .enter 1] ++ many 3 0 1 ++ [.sys (.log 2 0 anInfo), .sys (.step 2), .sys (.step 2), .enter 2] ++
  many 9 0 1 ++ [.enter 1] ++ many 12 1 1 ++ [.sys (.step 1), .sys (.step 1), .enter 1] ++ many 1 0 1 ++ [.enter 1] ++ many 1 1 1 ++
  [.enter 1] ++ many 15 0 1 ++ [.enter 1] ++ many 17 1 1

def watched : Option (List System.Sys × St) := watch 1 during ([before.sys.sys], called)

theorem watched_some : watched.isSome = true := by decide +kernel

def returned : List System.Sys × St := watched.get watched_some

theorem called_calling : Calling exampleSetup 1 0 aWarn before [before.sys.sys] called ∧ Tail called :=
  ⟨.start (by decide) (freeNow_free before_run.2 (by decide) (by decide +kernel)) (by decide +kernel) (by decide +kernel),
    ⟨before_run.2.file, before_run.2.thread, fun t h => by
      show upd before.todo 1 _ t = _
      rw [System.upd_other _ _ (fun e => by rw [e] at h; exact absurd h (by decide))]
      exact before_run.2.todo t h⟩⟩

theorem returned_calling : Calling exampleSetup 1 0 aWarn before returned.1 returned.2 ∧ Tail returned.2 := by
  have h : watched = some returned := (Option.some_get _).symm
  unfold watched at h
  exact watch_calling (x := ([before.sys.sys], called)) (y := returned) called_calling.2 called_calling.1 h

def steady (y : System.Sys) : Bool := (y.lgr 0).level == .debug && (y.lgr 0).sink == some 1

theorem returned_facts : freeNow returned.2 1 = true ∧ idleNow (returned.2.sys.pc 1) = true ∧ freeNow returned.2 2 = false ∧
    (acceptedFrom 1 (returned.2.leaf 1)).map (·.message) = [['h', 'e', 'l', 'l', 'o']] := by decide +kernel

theorem returned_steady : returned.1.all steady = true := by decide +kernel

theorem steady_of {y : System.Sys} (h : steady y = true) : (y.lgr 0).level = .debug ∧ (y.lgr 0).sink = some 1 := by
  simpa [steady] using h

theorem idleNow_idle {p : System.Conc.PC} (h : idleNow p = true) : p = .idle := by
  unfold idleNow at h
  split at h
  · rfl
  · cases h

/-- the hypotheses of `C89_log_call`: the call is over, level and sink of the logger did not change; meanwhile thread 2 is inside the queue -/
example : Reach exampleSetup before ∧ Calling exampleSetup 1 0 aWarn before returned.1 returned.2 ∧ ¬ Busy returned.2 1 ∧
    (∀ y ∈ returned.1, (y.lgr 0).level = .debug ∧ (y.lgr 0).sink = some 1) ∧ freeNow returned.2 2 = false ∧
    (acceptedFrom 1 (returned.2.leaf 1)).map (·.message) = [['h', 'e', 'l', 'l', 'o']] :=
  have hf : Free returned.2 1 := freeNow_free returned_calling.2 (by decide) returned_facts.1
  ⟨before_run.1.reach initial_reach, returned_calling.1, fun h => h.elim (fun h => h (idleNow_idle returned_facts.2.1)) (fun h => h hf),
    fun y hy => steady_of (List.all_eq_true.1 returned_steady y hy), returned_facts.2.2.1, returned_facts.2.2.2⟩

end Many
end Soralog
