import Verif.Props.SinkConc
import Verif.Props.Syslog
import Verif.Spec.SyslogRun
/-!
# C26, C54 (concurrent part), C70, C71: the syslog sink under concurrency

`Reach c true s`: `s` is reachable by some schedule of any number of client threads, the worker and the destructor, from a new sink;
`c.isSyslog` says the sink is a syslog sink.  `put` is the sequence of accepted events in queue order, `calls` the calls of
`syslog()` with priority and text, `written` the events that have been through the loop body of a flush.
-/
namespace Soralog
namespace SinkConc
open Spec Render

/-- any number of actions, new calls included -/
inductive Runs (c : Cfg) : St → St → Prop where
  | refl (s : St) : Runs c s s
  | more {s m s' : St} : Exec c s m → Runs c m s' → Runs c s s'

theorem Runs.reach {c : Cfg} {o : Bool} {s s' : St} (h : Reach c o s) (hr : Runs c s s') : Reach c o s' := by
  induction hr with
  | refl => exact h
  | more he _ ih => exact ih (.next h he)

/-- a syslog sink -/
def syslogCfg (latency0 : Bool) : Cfg := ⟨.syslog, latency0, 4, 100, fun _ => [], fun es => es.flatMap (·.message)⟩

/-- two threads push to a syslog sink and one of them flushes -/
def syslogActs : List Act :=
  [.call 1 (.push (ev ['a'])), .run 1 4, .call 2 (.push (ev ['b'])), .run 2 4, .call 1 .flush, .run 1 12]

def syslogState : St := (exec (syslogCfg false) syslogActs (init (syslogCfg false) true)).get rfl

theorem syslog_reach : Reach (syslogCfg false) true syslogState := exec_reach .init (Option.some_get _).symm

example : syslogState.pc 1 = .idle ∧ syslogState.pc 2 = .idle ∧ syslogState.put.length = 2 ∧ syslogState.written.length = 2 ∧
    syslogState.calls = [(5, ['a']), (5, ['a', 'b'])] := ⟨rfl, rfl, rfl, rfl, rfl⟩

/-! ## C70 -/

/-- **C70**: under every schedule, the calls of `syslog()` made so far are one call for each event that has a priority, in queue order,
with that priority, over a prefix of the accepted events; and when no thread is inside `flush`, that prefix is all accepted events
that are not queued any more. -/
theorem C70_syslog_calls (c : Cfg) (s : St) (h : Reach c true s) (hk : c.isSyslog = true) :
    ∃ es, es <+: s.put ∧ s.put.length ≤ es.length + 1 + (s.put.drop s.taken).length ∧
      s.calls.map (·.1) = es.filterMap (fun e => syslogPriority e.level) ∧ (s.flag = false → es = s.put.take s.taken) := by
  obtain ⟨h1, h2⟩ := C24_written_is_prefix c s h
  refine ⟨s.written, h1, h2, ?_, fun hf => ((flow_reach h).free hf).symm⟩
  rw [calls_reach h hk]
  simp only [Sink.priority_eq]

theorem callsOfRun_nil (text : List Event → Text) : callsOfRun text [] = [] := rfl

theorem filterMap_ext {α β : Type} {f g : α → Option β} {l : List α} (h : ∀ a ∈ l, f a = g a) : l.filterMap f = l.filterMap g := by
  induction l with
  | nil => rfl
  | cons a l ih =>
    rw [List.filterMap_cons, List.filterMap_cons, h a List.mem_cons_self, ih (fun b hb => h b (List.mem_cons_of_mem _ hb))]

theorem callsOfRun_snoc (text : List Event → Text) (r : List Event) (e : Event) :
    callsOfRun text (r ++ [e]) = callsOfRun text r ++ ((syslogPriority e.level).map fun p => (p, text (r ++ [e]))).toList := by
  unfold callsOfRun
  rw [List.length_append, List.length_singleton, List.range_succ, List.filterMap_append]
  congr 1
  · apply filterMap_ext
    intro i hi
    have hi : i < r.length := List.mem_range.1 hi
    rw [List.getElem?_append_left hi, List.take_append_of_le_length (by omega)]
  · have hg : (r ++ [e])[r.length]? = some e := by simp
    have ht : (r ++ [e]).take (r.length + 1) = r ++ [e] := List.take_of_length_le (by simp)
    simp only [List.filterMap_cons, List.filterMap_nil, hg, ht, Option.bind_some]
    cases syslogPriority e.level <;> rfl

/-- the events that have been processed, cut into the flushes that processed them -/
def Cut (c : Cfg) (s : St) (runs : List (List Event)) : Prop :=
  s.written = runs.flatten ++ s.run ∧ s.calls = runs.flatMap (callsOfRun c.sysText) ++ callsOfRun c.sysText s.run

theorem step_cut (c : Cfg) (s : St) (t : Tid) (ch : Ch) (hfit : (s.pc t).fits c) (hk : c.isSyslog = true) {runs : List (List Event)}
    (h : Cut c s runs) : ∃ runs', Cut c (step c s t ch) runs' := by
  obtain ⟨h1, h2⟩ := h
  cases hp : s.pc t with
  | sCall k e =>
    refine ⟨runs, ?_, ?_⟩ <;> (unfold step; simp only [hp])
    · show s.written ++ [e] = _ ++ (s.run ++ [e])
      rw [h1, List.append_assoc]
    · show s.calls ++ sysCalls c s.run e = _ ++ callsOfRun c.sysText (s.run ++ [e])
      rw [callsOfRun_snoc, h2, List.append_assoc]
      congr 2
      unfold sysCalls
      rw [Sink.priority_eq]
      cases syslogPriority e.level <;> rfl
  | enter k =>
    unfold step; simp only [hp]; split
    · exact ⟨runs, h1, h2⟩
    · refine ⟨runs ++ [s.run], ?_, ?_⟩
      · show s.written = (runs ++ [s.run]).flatten ++ []
        rw [h1]; simp
      · show s.calls = (runs ++ [s.run]).flatMap _ ++ []
        rw [h2]; simp
  | write k e => rw [hp] at hfit; have hfit : c.isSyslog = false := hfit; rw [hk] at hfit; cases hfit
  | _ => refine ⟨runs, ?_⟩; unfold step; simp only [hp]; (repeat' split) <;> exact ⟨h1, h2⟩

theorem cut_reach {c : Cfg} {o : Bool} {s : St} (h : Reach c o s) (hk : c.isSyslog = true) : ∃ runs, Cut c s runs := by
  induction h with
  | init => exact ⟨[], rfl, rfl⟩
  | @next s s' hr he ih =>
    obtain ⟨runs, ih⟩ := ih
    cases he with
    | step t ch => exact step_cut c s t ch (fits_reach hr t) hk ih
    | call t ht hi hd call => exact ⟨runs, ih⟩
    | destroy t ht hd hi => exact ⟨runs, ih⟩

/-- **C70**, texts: under every schedule the processed events -- a prefix of the accepted ones -- are cut into consecutive flushes, and
the text of each call depends on the events its flush has processed so far, on nothing else: never on events of another flush, never
on events that have not been processed. -/
theorem C70_syslog_texts (c : Cfg) (s : St) (h : Reach c true s) (hk : c.isSyslog = true) :
    ∃ runs : List (List Event), runs.flatten <+: s.put ∧ s.calls = runs.flatMap (callsOfRun c.sysText) ∧
      (s.flag = false → runs.flatten = s.put.take s.taken) := by
  obtain ⟨runs, h1, h2⟩ := cut_reach h hk
  refine ⟨runs ++ [s.run], ?_, by rw [h2]; simp, ?_⟩
  · have := (C24_written_is_prefix c s h).1
    rw [h1] at this
    simpa using this
  · intro hf
    have := (flow_reach h).free hf
    rw [this, h1]; simp

/-- the two theorems apply to the state of the example above, in which one flush has sent two messages -/
example : Reach (syslogCfg false) true syslogState ∧ (syslogCfg false).isSyslog = true ∧ syslogState.calls.length = 2 ∧
    syslogState.flag = false := ⟨syslog_reach, rfl, rfl, rfl⟩

/-! ### which texts these are -/

theorem staged_cstr (lt : LocalTime) (ti : ThreadInfo) (a : Text) (ha : '\x00' ∉ a) (es : List Event) (p : W × Cache) (x : Text)
    (hp : p.1.out = a ++ '\x00' :: x) :
    Sink.cstr (es.foldl (fun p e => syslogRecord lt ti p.2 p.1 e) p).1.out = a := by
  induction es generalizing p x with
  | nil => rw [List.foldl_nil, hp]; exact Sink.cstr_append ha
  | cons e es ih =>
    rw [List.foldl_cons]
    obtain ⟨⟨y, hy⟩, _⟩ := grows_syslogRecord lt ti p.2 e p.1
    exact ih _ (x ++ y) (by rw [hy, hp]; simp)

/-- The text that one flush passes to `syslog()`, from the first call to the last one, is the own text of the *first* event it
processes. -/
theorem runText_first (lt : LocalTime) (ti : ThreadInfo) (cap maxLen : Nat) (hlt : ∀ s, (lt s).Ok) (e : Event) (rest : List Event)
    (he : Sink.Sendable maxLen e) (hb : 95 + maxLen ≤ cap) : Sink.runText lt ti cap (e :: rest) = Sink.ownText lt ti e := by
  unfold Sink.runText Sink.staged
  rw [List.foldl_cons]
  obtain ⟨hg, hp⟩ := Cache.update_good lt hlt Cache.init (Spec.second e.timestamp) Cache.init_length (.inr (fun h => he.later h.symm))
  have hdt : (Cache.init.update lt (Spec.second e.timestamp)).datetime = stamp lt (Spec.second e.timestamp) := by
    have := hg; unfold Cache.Good at this; rw [this, hp]
  have hfit := syslogRecord_fits lt ti Cache.init ⟨cap, [], false⟩ e he.wf (by
    rw [hdt]
    have := compact_length_le (stamp lt (Spec.second e.timestamp)) ti e he.wf (stamp_length _ _)
    show 0 + _ + 1 ≤ cap
    omega)
  rw [hdt] at hfit
  refine staged_cstr lt ti (Sink.ownText lt ti e) (compact_no_nul he.wf (stamp_no_nul _ _) he.name he.message) rest _ [] ?_
  rw [hfit]; simp [ownText_eq]

theorem callsOfRun_first {text : List Event → Text} {x : Text} (r : List Event) (h : ∀ i, i < r.length → text (r.take (i + 1)) = x) :
    callsOfRun text r = callsFor (fun _ => x) r := by
  suffices H : ∀ n, n ≤ r.length → callsOfRun text (r.take n) = callsFor (fun _ => x) (r.take n) by
    have := H r.length (Nat.le_refl _)
    rwa [List.take_length] at this
  intro n
  induction n with
  | zero => intro _; rfl
  | succ n ih =>
    intro hn
    have hs : r.take (n + 1) = r.take n ++ [r[n]] := by rw [List.take_succ_eq_append_getElem (by omega)]
    rw [hs, callsOfRun_snoc, ih (by omega), ← hs, h n (by omega)]
    unfold callsFor
    rw [hs, List.filterMap_append]
    congr 1

/-- **C54**, under every schedule: with the staging buffer as it really is used, all calls made by one flush carry the own text of the
first event that flush processed; so C54 holds for the flushes that process one event (see `C54_refuted`). -/
theorem C54_concurrent_first_text_partial (c : Cfg) (s : St) (h : Reach c true s) (hk : c.isSyslog = true) (lt : LocalTime)
    (ti : ThreadInfo) (cap maxLen : Nat) (hlt : ∀ s, (lt s).Ok) (hb : 95 + maxLen ≤ cap) (hc : c.sysText = Sink.runText lt ti cap)
    (hs : ∀ e ∈ s.put, Sink.Sendable maxLen e) :
    ∃ runs : List (List Event), runs.flatten <+: s.put ∧ (s.flag = false → runs.flatten = s.put.take s.taken) ∧ (∀ r ∈ runs, r ≠ []) ∧
      s.calls = runs.flatMap (fun r => callsFor (fun _ => (r.head?.map (Sink.ownText lt ti)).getD []) r) := by
  obtain ⟨runs, h1, h2, h3⟩ := C70_syslog_texts c s h hk
  have hfl : ∀ runs : List (List Event), (runs.filter (fun r => decide (r ≠ []))).flatten = runs.flatten := by
    intro runs
    induction runs with
    | nil => rfl
    | cons r rs ih => cases r <;> simpa using ih
  refine ⟨runs.filter (fun r => decide (r ≠ [])), by rw [hfl]; exact h1, by rw [hfl]; exact h3, fun r hr => by simpa using (List.mem_filter.1 hr).2, ?_⟩
  rw [h2]
  have hmem : ∀ r ∈ runs, ∀ e ∈ r, Sink.Sendable maxLen e := fun r hr e he =>
    hs e (h1.subset (List.mem_flatten.2 ⟨r, hr, he⟩))
  clear h1 h2 h3 hfl
  induction runs with
  | nil => rfl
  | cons r rs ih =>
    rw [List.flatMap_cons, ih (fun r hr => hmem r (List.mem_cons_of_mem _ hr))]
    cases r with
    | nil => simp [callsOfRun_nil]
    | cons e es =>
      rw [List.filter_cons_of_pos (by simp), List.flatMap_cons]
      congr 1
      refine callsOfRun_first (e :: es) ?_
      intro i hi
      rw [hc, List.take_succ_cons]
      exact runText_first lt ti cap maxLen hlt e _ (hmem _ List.mem_cons_self e List.mem_cons_self) hb

/-! ### a flush drains, also at destruction -/

/-- thread `t` is inside the loop of a syslog flush -/
def PC.inLoop (k : Ret) (p : PC) : Prop := p = .get k ∨ ∃ e, p = .sCall k e ∨ p = .sUncount k e ∨ p = .sUnref k e

theorem loop_step {c : Cfg} {s : St} {t : Tid} {k : Ret} (ch : Ch) (hk : c.isSyslog = true) (h : (s.pc t).inLoop k) :
    ((step c s t ch).pc t).inLoop k ∨ (s.put.length ≤ s.taken ∧ s.pc t = .get k) := by
  rcases h with h | ⟨e, h | h | h⟩
  · cases he : s.put[s.taken]? with
    | none => right; exact ⟨List.getElem?_eq_none_iff.1 he, h⟩
    | some e =>
      left
      unfold step; simp only [h, he]; split
      · right; exact ⟨e, Or.inl (by simp [setPc, upd, taking, hk])⟩
      · left; exact h
  · left; unfold step; simp only [h]; right; exact ⟨e, Or.inr (Or.inl (by simp [setPc, upd]))⟩
  · left; unfold step; simp only [h]; right; exact ⟨e, Or.inr (Or.inr (by simp [setPc, upd]))⟩
  · left; unfold step; simp only [h]; left; simp [setPc, upd]

theorem exec_other_pc {c : Cfg} {s m : St} (h : Exec c s m) (t : Tid) (hi : s.pc t ≠ .idle) (htw : t ≠ workerTid) :
    (∃ ch, m = step c s t ch) ∨ m.pc t = s.pc t := by
  cases h with
  | step u ch =>
    by_cases hu : t = u
    · subst hu; exact Or.inl ⟨ch, rfl⟩
    · exact Or.inr (step_pc_other c s u ch t hu)
  | call u hu hiu hd call =>
    right
    show upd _ _ _ _ = _
    rw [upd, if_neg (fun h => hi (by rw [h]; exact hiu))]
  | destroy u hu hd hid => exact absurd (hid t htw) hi

/-- **C70**, `flush()` drains: if a client's `flush()` got past the test of `flush_in_progress_`, then whatever the other threads do
meanwhile, before it returns there is a moment at which the queue is empty and every event accepted until then has been through the
loop (its call of `syslog()` has been made). -/
theorem C70_flush_drains (c : Cfg) (s s' : St) (h : Reach c true s) (hk : c.isSyslog = true) (t : Tid) (ht : t ≠ workerTid) (k : Ret)
    (hin : (s.pc t).inLoop k) (hr : Runs c s s') (hout : ¬ (s'.pc t).inLoop k) :
    ∃ m, Runs c s m ∧ Runs c m s' ∧ m.put.drop m.taken = [] ∧ m.written = m.put := by
  induction hr with
  | refl => exact absurd hin hout
  | @more s m s' he hr ih =>
    have hne : s.pc t ≠ .idle := by
      rcases hin with h | ⟨e, h | h | h⟩ <;> rw [h] <;> simp
    by_cases hm : (m.pc t).inLoop k
    · obtain ⟨x, h1, h2, h3⟩ := ih (.next h he) hm hout
      exact ⟨x, .more he h1, h2, h3⟩
    · rcases exec_other_pc he t hne ht with ⟨ch, hst⟩ | hsame
      · rcases loop_step ch hk hin with hl | ⟨hl, hg⟩
        · rw [hst] at hm; exact absurd hl hm
        · refine ⟨s, .refl _, .more he hr, List.drop_eq_nil_iff.2 hl, ?_⟩
          have := (flow_reach h).body t (by rw [hg]; rfl)
          rw [hg, List.take_of_length_le hl] at this
          simpa [PC.flight] using this.symm
      · rw [hsame] at hm; exact absurd hin hm

/-- in the example, the flush has been inside the loop and has left it -/
example : ∃ s s', exec (syslogCfg false) (syslogActs.take 5) (init (syslogCfg false) true) = some s ∧
    exec (syslogCfg false) syslogActs (init (syslogCfg false) true) = some s' ∧ s.pc 1 = .enter .done ∧
    ((runN (syslogCfg false) 1 1 s).pc 1).inLoop .done ∧ s'.pc 1 = .idle := ⟨_, _, rfl, rfl, rfl, Or.inl rfl, rfl⟩

/-- **C26** for the syslog sink with latency 0: when the destructor has returned, every event ever accepted has been through the loop,
whatever happened before, whatever is queued (unlike the console and file sinks, `C26_refuted`).  With a worker this is
`C26_destructor_writes_all_partial`. -/
theorem C26_syslog_zero_latency (c : Cfg) (s : St) (h : Reach c true s) (hk : c.isSyslog = true) (hl : c.latency0 = true) (d : Tid)
    (hd : s.owner = some d) (hdead : s.pc d = .dead) : s.written = s.put := by
  -- while the destructor runs, it has not reached the test yet, or is in the loop, or the queue is empty
  have key : ∀ {s : St}, Reach c true s → s.owner = some d →
      (((s.pc d = .dStart ∨ s.pc d = .enter .destroy) ∧ s.flag = false) ∨ (s.pc d).inLoop .destroy ∨ s.put.length ≤ s.taken) := by
    intro s h
    induction h with
    | init => intro h; cases h
    | @next s s' hr he ih =>
      intro ho
      cases he with
      | call t ht hi hdn call => rw [show (setPc s t _).owner = s.owner from rfl, hdn] at ho; cases ho
      | destroy t ht hdn hi =>
        left
        have : t = d := by simpa [setPc] using ho
        subst this
        refine ⟨Or.inl (by simp [setPc, upd]), ?_⟩
        show s.flag = false
        cases hf : s.flag with
        | false => rfl
        | true =>
          obtain ⟨u, hu⟩ := (excl_reach hr).free hf
          by_cases huw : u = workerTid
          · subst huw; rw [(final_reach hr).lat0 hl] at hu; cases hu
          · rw [hi u huw] at hu; cases hu
      | step t ch =>
        rw [step_owner] at ho
        obtain ⟨o1, o2, o3⟩ := (roles_reach hr).owner d ho
        by_cases htd : t = d
        · subst htd
          rcases ih ho with ⟨h2 | h2, hf⟩ | h2 | h2
          · left
            have : step c s t ch = setPc s t (.enter .destroy) := by unfold step; simp only [h2, hl, if_true]
            rw [this]; exact ⟨Or.inr (by simp [setPc, upd]), hf⟩
          · right; left
            have : step c s t ch = setPc { s with flag := true, run := [] } t (.get .destroy) := by
              unfold step; simp only [h2, hf]; rfl
            rw [this]; left; simp [setPc, upd]
          · rcases loop_step ch hk h2 with h3 | ⟨h3, hg⟩
            · exact Or.inr (Or.inl h3)
            · right; right
              rw [get_step_none hg (List.getElem?_eq_none h3)]
              exact h3
          · right; right
            rcases step_queue c s t ch with ⟨q1, q2, _⟩ | ⟨e, hp, _⟩ | ⟨n, hp, _⟩ | ⟨n, hp, _⟩ | ⟨k, e, hp, he, _⟩
            · rw [q1, q2]; exact h2
            · rw [hp] at o2; cases o2
            · rw [hp] at o2; cases o2
            · rw [hp] at o2; cases o2
            · have := (List.getElem?_eq_some_iff.1 he).1
              omega
        · have : step c s t ch = s := by
            by_cases htw : t = workerTid
            · subst htw; exact role_wExit_step c s _ ch ((final_reach hr).lat0 hl)
            · unfold step; rw [o3 t htw htd]
          rw [this]; exact ih ho
  have hq : s.put.length ≤ s.taken := by
    rcases key h hd with ⟨h1 | h1, _⟩ | h1 | h1
    · rw [hdead] at h1; cases h1
    · rw [hdead] at h1; cases h1
    · rcases h1 with h1 | ⟨e, h1 | h1 | h1⟩ <;> (rw [hdead] at h1; cases h1)
    · exact h1
  have hnb : ∀ t, (s.pc t).inBody = false := by
    intro t
    obtain ⟨o1, o2, o3⟩ := (roles_reach h).owner d hd
    by_cases htw : t = workerTid
    · subst htw; rw [(final_reach h).lat0 hl]; rfl
    · by_cases htd : t = d
      · subst htd; rw [hdead]; rfl
      · rw [o3 t htw htd]; rfl
  have hf : s.flag = false := by
    cases hf : s.flag with
    | false => rfl
    | true => obtain ⟨t, ht⟩ := (excl_reach h).free hf; rw [hnb t] at ht; cases ht
  rw [← (flow_reach h).free hf, List.take_of_length_le hq]

/-! ## C71 -/

/-- actions during which thread `t` stays inside the guarded part of its `flush` -/
inductive RunsIn (c : Cfg) (t : Tid) : St → St → Prop where
  | refl (s : St) (h : (s.pc t).inBody = true) : RunsIn c t s s
  | more {s m s' : St} (h : (s.pc t).inBody = true) : Exec c s m → RunsIn c t m s' → RunsIn c t s s'

theorem RunsIn.trans {c : Cfg} {t : Tid} {a b d : St} (h1 : RunsIn c t a b) (h2 : RunsIn c t b d) : RunsIn c t a d := by
  induction h1 with
  | refl => exact h2
  | more h he _ ih => exact .more h he (ih h2)

theorem exec_taken {c : Cfg} {o : Bool} {s m : St} (hr : Reach c o s) (he : Exec c s m) (t : Tid) (ht : (s.pc t).inBody = true)
    (hk : c.isSyslog = false) :
    (m.taken = s.taken ∧ ((∃ k, m.pc t = .get k) → ∃ k, s.pc t = .get k)) ∨
    ((∃ k, s.pc t = .get k) ∧ m.taken = s.taken + 1 ∧ ¬ ∃ k, m.pc t = .get k) := by
  cases he with
  | call u hu hi hd call =>
    left
    refine ⟨rfl, fun ⟨k, h⟩ => ⟨k, ?_⟩⟩
    have hut : t ≠ u := by intro h; subst h; rw [hi] at ht; cases ht
    have : (setPc s u (startPC call)).pc t = .get k := by cases call <;> exact h
    simpa [setPc, upd, hut] using this
  | destroy u hu hd hi =>
    left
    refine ⟨rfl, fun ⟨k, h⟩ => ⟨k, ?_⟩⟩
    have hut : t ≠ u := by intro h; subst h; rw [hi t hu] at ht; cases ht
    simpa [setPc, upd, hut] using h
  | step u ch =>
    by_cases hu : t = u
    · subst hu
      have hfit := fits_reach hr t
      cases hp : s.pc t with
      | get k =>
        unfold step; simp only [hp]
        split
        · left; exact ⟨rfl, fun _ => ⟨k, rfl⟩⟩
        · split
          · right; exact ⟨⟨k, rfl⟩, rfl, by simp [setPc, upd, taking, hk]⟩
          · left; exact ⟨rfl, fun _ => ⟨k, rfl⟩⟩
      | sCall k e => rw [hp] at hfit; have hfit : c.isSyslog = true := hfit; rw [hk] at hfit; cases hfit
      | sUncount k e => rw [hp] at hfit; have hfit : c.isSyslog = true := hfit; rw [hk] at hfit; cases hfit
      | sUnref k e => rw [hp] at hfit; have hfit : c.isSyslog = true := hfit; rw [hk] at hfit; cases hfit
      | sClear k => rw [hp] at hfit; have hfit : c.isSyslog = true := hfit; rw [hk] at hfit; cases hfit
      | leave k =>
        left; unfold step; simp only [hp]
        refine ⟨rfl, fun ⟨k', h⟩ => ?_⟩
        rw [show (setPc { s with flag := false } t (afterFlush k)).pc t = afterFlush k by simp [setPc, upd]] at h
        cases k <;> cases h
      | write k e =>
        left; cases e with
        | none => unfold step; simp only [hp]; exact ⟨rfl, fun ⟨k', h⟩ => (by simp [setPc, upd] at h)⟩
        | some e => unfold step; simp only [hp]; split <;> exact ⟨rfl, fun ⟨k', h⟩ => (by simp [setPc, upd] at h)⟩
      | uncount k e => left; unfold step; simp only [hp]; exact ⟨rfl, fun ⟨k', h⟩ => (by simp [setPc, upd] at h)⟩
      | unref k e => left; unfold step; simp only [hp]; exact ⟨rfl, fun ⟨k', h⟩ => (by simp [setPc, upd] at h)⟩
      | casFlush k => left; unfold step; simp only [hp]; split <;> exact ⟨rfl, fun ⟨k', h⟩ => (by simp [setPc, upd] at h)⟩
      | sync k => left; unfold step; simp only [hp]; exact ⟨rfl, fun ⟨k', h⟩ => (by simp [setPc, upd] at h)⟩
      | casRotate k => left; unfold step; simp only [hp]; split <;> exact ⟨rfl, fun ⟨k', h⟩ => (by simp [setPc, upd] at h)⟩
      | reopen k => left; unfold step; simp only [hp]; split <;> exact ⟨rfl, fun ⟨k', h⟩ => (by simp [setPc, upd] at h)⟩
      | _ => rw [hp] at ht; cases ht
    · left
      rw [step_pc_other c s u ch t hu]
      refine ⟨?_, id⟩
      have hnb : (s.pc u).inBody = false := by
        cases hb : (s.pc u).inBody with
        | false => rfl
        | true => exact absurd ((excl_reach hr).uniq t u ht hb) hu
      rcases step_queue c s u ch with ⟨_, q2, _⟩ | ⟨e, _, _, hs⟩ | ⟨n, _, hs⟩ | ⟨n, _, hs⟩ | ⟨k, e, hp, _⟩
      · exact q2
      · rw [hs]; rfl
      · rw [hs]; rfl
      · rw [hs]; rfl
      · rw [hp] at hnb; cases hnb

/-- **C71**, console and file sinks: however many events other threads push meanwhile, one `flush()` takes at most one event out of the
queue: while it is inside, at most one event leaves the queue. -/
theorem C71_flush_takes_at_most_one_partial (c : Cfg) (o : Bool) (s s' : St) (h : Reach c o s) (hk : c.isSyslog = false) (t : Tid)
    (hr : RunsIn c t s s') : s'.taken ≤ s.taken + 1 := by
  classical
  have key : s'.taken ≤ s.taken + (if (∃ k, s.pc t = .get k) then 1 else 0) := by
    induction hr with
    | refl => omega
    | @more s m s' hb he _ ih =>
      have ih := ih (.next h he)
      rcases exec_taken h he t hb hk with ⟨h1, h2⟩ | ⟨h1, h2, h3⟩
      · by_cases hm : ∃ k, m.pc t = .get k
        · rw [if_pos hm] at ih; rw [if_pos (h2 hm)]; omega
        · rw [if_neg hm] at ih; omega
      · rw [if_neg h3] at ih; rw [if_pos h1]; omega
  split at key <;> omega

/-- thread 1 is inside the flush of a syslog sink, at the top of the loop; the queue is empty; thread 2 is idle -/
structure AtTop (s : St) : Prop where
  one : s.pc 1 = .get .done
  two : s.pc 2 = .idle
  empty : s.put.length = s.taken
  held : s.held = false
  size : s.size = 0
  owner : s.owner = none

theorem atTop_again {s : St} (h : AtTop s) :
    ∃ s', RunsIn (syslogCfg false) 1 s s' ∧ AtTop s' ∧ s'.taken = s.taken + 1 ∧ s'.put = s.put ++ [ev ['x']] := by
  obtain ⟨one, two, empty, held, size, owner⟩ := h
  let c := syslogCfg false
  let e := ev ['x']
  have hq : s.queued = 0 := by unfold St.queued; omega
  -- thread 2 pushes
  let a0 := setPc s 2 (.put e)
  let a1 := setPc { a0 with put := a0.put ++ [e] } 2 (.count a0.put.length)
  have e1 : step c a0 2 calmCh = a1 := by
    have : a0.pc 2 = .put e := by simp [a0, setPc, upd]
    have hq0 : a0.queued = 0 := hq
    unfold step; simp only [this]
    rw [if_neg (by rw [hq0]; show ¬ 0 = 4; omega), if_neg (by rw [show a0.held = false from held]; simp)]
  let a2 := setPc { a1 with size := 1, phase := upd a1.phase a0.put.length .counted } 2 (.release a0.put.length)
  have e2 : step c a1 2 calmCh = a2 := by
    have : a1.pc 2 = .count a0.put.length := by simp [a1, setPc, upd]
    unfold step; simp only [this]
    have hg : a1.put.getD a0.put.length ⟨0, 0, [], [], .off, []⟩ = e := by simp [a1, setPc]
    rw [hg, show a1.size = 0 from size]
    rfl
  let a3 := setPc { a2 with phase := upd a2.phase a0.put.length .ready } 2 .decide
  have e3 : step c a2 2 calmCh = a3 := by
    have : a2.pc 2 = .release a0.put.length := by simp [a2, setPc, upd]
    unfold step; simp only [this]
    rfl
  let a4 := setPc a3 2 .idle
  have e4 : step c a3 2 calmCh = a4 := by
    have : a3.pc 2 = .decide := by simp [a3, setPc, upd]
    unfold step; simp only [this]
    rw [if_neg (by show ¬ (false = true); simp), if_neg (by show ¬ 100 ≤ 1; omega)]
  -- thread 1 processes the event
  have hp4 : a4.pc 1 = .get .done := by simp [a4, a3, a2, a1, a0, setPc, upd, one]
  let b1 := setPc { a4 with taken := a4.taken + 1, held := true } 1 (.sCall .done e)
  have f1 : step c a4 1 calmCh = b1 := by
    have hg : a4.put[a4.taken]? = some e := by
      show (s.put ++ [e])[s.taken]? = _
      rw [← empty]; simp
    refine (get_step_some hp4 hg ?_).trans rfl
    show upd _ _ _ _ = _
    rw [show a4.taken = a0.put.length from empty.symm, upd, if_pos rfl]
  let b2 := setPc { b1 with run := b1.run ++ [e], calls := b1.calls ++ sysCalls c b1.run e, written := b1.written ++ [e] } 1 (.sUncount .done e)
  have f2 : step c b1 1 calmCh = b2 := by
    have : b1.pc 1 = .sCall .done e := by simp [b1, setPc, upd]
    unfold step; simp only [this]; rfl
  let b3 := setPc { b2 with size := 0 } 1 (.sUnref .done e)
  have f3 : step c b2 1 calmCh = b3 := by
    have : b2.pc 1 = .sUncount .done e := by simp [b2, setPc, upd]
    have hz : Sink.subSize b2.size e.message.length = 0 := by show Sink.subSize 1 1 = 0; decide
    unfold step; simp only [this]
    rw [hz]
  let b4 := setPc { b3 with held := false } 1 (.get .done)
  have f4 : step c b3 1 calmCh = b4 := by
    have : b3.pc 1 = .sUnref .done e := by simp [b3, setPc, upd]
    unfold step; simp only [this]; rfl
  have ex : ∀ (x y : St) (t : Tid), step c x t calmCh = y → Exec c x y := fun x y t h => h ▸ Exec.step x t calmCh
  have b : ∀ (x : St) (p : PC), x.pc 1 = p → p.inBody = true → (x.pc 1).inBody = true := fun x p h1 h2 => by rw [h1]; exact h2
  refine ⟨b4, ?_, ⟨?_, ?_, ?_, rfl, rfl, owner⟩, rfl, rfl⟩
  · refine .more (b _ _ one rfl) (Exec.call s 2 (by decide) two owner (.push e)) ?_
    refine .more (m := a1) (b _ (.get .done) (by simp [setPc, upd, one]) rfl) (ex _ _ 2 e1) ?_
    refine .more (m := a2) (b _ (.get .done) (by simp [a1, a0, setPc, upd, one]) rfl) (ex _ _ 2 e2) ?_
    refine .more (m := a3) (b _ (.get .done) (by simp [a2, a1, a0, setPc, upd, one]) rfl) (ex _ _ 2 e3) ?_
    refine .more (m := a4) (b _ (.get .done) (by simp [a3, a2, a1, a0, setPc, upd, one]) rfl) (ex _ _ 2 e4) ?_
    refine .more (m := b1) (b _ _ hp4 rfl) (ex _ _ 1 f1) ?_
    refine .more (m := b2) (b _ (.sCall .done e) (by simp [b1, setPc, upd]) rfl) (ex _ _ 1 f2) ?_
    refine .more (m := b3) (b _ (.sUncount .done e) (by simp [b2, setPc, upd]) rfl) (ex _ _ 1 f3) ?_
    refine .more (m := b4) (b _ (.sUnref .done e) (by simp [b3, setPc, upd]) rfl) (ex _ _ 1 f4) ?_
    exact .refl _ (b _ (.get .done) (by simp [b4, setPc, upd]) rfl)
  · simp [b4, setPc, upd]
  · simp [b4, b3, b2, b1, a4, setPc, upd]
  · show (s.put ++ [e]).length = s.taken + 1
    simp [empty]

/-- a client that has just got inside the flush of an empty syslog sink -/
def atTopState : St := (exec (syslogCfg false) [.call 1 .flush, .run 1 1] (init (syslogCfg false) true)).get rfl

theorem atTop_start : AtTop atTopState := ⟨rfl, rfl, rfl, rfl, rfl, rfl⟩

/-- **C71 is false for the syslog sink**: for every `n` there is a schedule in which one call of `flush()` -- which found the queue
empty -- processes `n` events that another thread pushes meanwhile, and has not returned.  There is no bound. -/
theorem C71_refuted (n : Nat) : ∃ (c : Cfg) (s s' : St), c.isSyslog = true ∧ Reach c true s ∧ s.pc 1 = .get .done ∧ s.put = [] ∧
    RunsIn c 1 s s' ∧ s'.taken = s.taken + n ∧ s'.put = List.replicate n (ev ['x']) := by
  refine ⟨syslogCfg false, atTopState, ?_⟩
  suffices H : ∃ s', RunsIn (syslogCfg false) 1 atTopState s' ∧ AtTop s' ∧ s'.taken = n ∧ s'.put = List.replicate n (ev ['x']) by
    obtain ⟨s', h1, h2, h3, h4⟩ := H
    exact ⟨s', rfl, exec_reach .init (Option.some_get _).symm, rfl, rfl, h1, by rw [h3]; show n = 0 + n; omega, h4⟩
  induction n with
  | zero => exact ⟨atTopState, .refl _ rfl, atTop_start, rfl, rfl⟩
  | succ n ih =>
    obtain ⟨s', h1, h2, h3, h4⟩ := ih
    obtain ⟨s'', g1, g2, g3, g4⟩ := atTop_again h2
    exact ⟨s'', h1.trans g1, g2, by rw [g3, h3], by rw [g4, h4, List.replicate_succ']⟩

/-- the hypothesis of the positive part: a client inside the flush of a file sink that takes one event -/
example : RunsIn (exampleCfg true) 1 (runN (exampleCfg true) 1 5 (setPc (init (exampleCfg true) true) 1 (.put (ev ['a']))))
    (runN (exampleCfg true) 1 6 (setPc (init (exampleCfg true) true) 1 (.put (ev ['a'])))) :=
  .more rfl (Exec.step _ 1 calmCh) (.refl _ rfl)

end SinkConc
end Soralog
