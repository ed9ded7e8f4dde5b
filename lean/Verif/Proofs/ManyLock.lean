import Verif.Spec.ManyLock
import Verif.Proofs.Many
import Verif.Proofs.SinkFullDeliver
import Verif.Proofs.RaceSink
import Verif.Props.SinkFullLive
/-!
# Proofs: every pending call of a program can be completed
-/
namespace Soralog
namespace Many
namespace Lock
open Spec
open SinkConc (workerTid)

theorem gives_moves {fuel : Nat} {t : Tid} {s : System.Conc.St} {op : System.Op} {o : System.Conc.Outcome} {sys' : System.Sys} (hi : s.pc t = .idle)
    (hm : System.Conc.isMakeGroup op = false) (h : Gives fuel s.sys op sys' o) : Moves t s (s.finish t sys' op o) := by
  cases o with
  | ret v => exact .call s op fuel v sys' hi hm h
  | thrown => exact .failed s op fuel sys' hi hm h

theorem go_prog {S : Setup} {s s' : St} (h : Go S s s') : s'.prog = s.prog ∨ Many.Exec S s.prog s'.prog := by
  cases h with
  | step t ht hf hb hi hl => exact .inr (.system _ t _ ht hf (.step _ hi))
  | unlock t hf hb => exact .inl rfl
  | configured t hf hi hc hb => exact .inl rfl
  | enter t i q rest call ht hd hf hi ho hs => exact .inr (.enter _ t i q rest call ht hd hf hi ho hs)
  | leaf i t ch => exact .inr (.leaf _ i t ch)

theorem exec_prog {S : Setup} {s s' : St} (h : Exec S s s') : s'.prog = s.prog ∨ Many.Exec S s.prog s'.prog := by
  cases h with
  | go h => exact go_prog h
  | call t op fuel o sys' ht hf hb hi hm hl hc => exact .inr (.system _ t _ ht hf (gives_moves hi hm hc))
  | configure t ht hf hi hb hc hn => exact .inr (.system _ t _ ht hf (.configuring _ hi))
  | makeGroup t a ht hf hb hi => exact .inr (.system _ t _ ht hf (.makeGroup _ a hi))
  | log t i r ht hf hb hi ha => exact .inr (.system _ t _ ht hf (.log _ i r hi ha))
  | flush t i ht hf hb hi ha => exact .inr (.system _ t _ ht hf (.flush _ i hi ha))
  | direct t k d ht hf hb hi => exact .inr (.direct _ t k d ht hf hi)
  | destroy t i ht hf hi ho hc hn => exact .inr (.destroy _ t i ht hf hi ho hc hn)

theorem reach_prog {S : Setup} {s : St} (h : Reach S s) : Many.Reach S s.prog := by
  induction h with
  | init debug ord ho => exact .init debug ord ho
  | @next s s' _ he ih =>
    rcases exec_prog he with h | h
    · rw [h]; exact ih
    · exact .next ih h

theorem Goes.trans {S : Setup} {a b c : St} (h : Goes S a b) (h' : Goes S b c) : Goes S a c := by
  induction h with
  | refl => exact h'
  | more h1 _ ih => exact .more h1 (ih h')

theorem Goes.one {S : Setup} {a b : St} (h : Go S a b) : Goes S a b := .more h (.refl _)

theorem Goes.reach {S : Setup} {a b : St} (h : Goes S a b) (hr : Reach S a) : Reach S b := by
  induction h with
  | refl => exact hr
  | more h1 _ ih => exact ih (.next hr (.go h1))

/-! ### one sink -/

theorem steps_goes {S : Setup} {i : Nat} {f f' : SinkFull.St} (h : SinkFull.Steps (S.leaf i).conc f f') :
    ∀ s : St, s.prog.leaf i = f → Goes S s { s with prog := { s.prog with leaf := upd s.prog.leaf i f' } } := by
  induction h with
  | refl f =>
    intro s hs
    have : upd s.prog.leaf i f = s.prog.leaf := by
      funext j
      by_cases hj : j = i
      · subst hj; rw [System.upd_same, hs]
      · rw [System.upd_other _ _ hj]
    rw [this]; exact .refl _
  | @more f f' t ch _ ih =>
    intro s hs
    have h1 := Go.leaf (S := S) s i t ch
    refine .more h1 ?_
    have h2 := ih { s with prog := { s.prog with leaf := upd s.prog.leaf i (SinkFull.step (S.leaf i).conc (s.prog.leaf i) t ch) } }
      (by show upd s.prog.leaf i _ i = _; rw [System.upd_same, hs])
    simp only [System.upd_upd] at h2
    exact h2

/-- roles of the threads at a sink -/
theorem others_idle {c : SinkConc.Cfg} {o : Bool} (hcap : 0 < c.capacity) {f : SinkFull.St} (h : SinkFull.Reach c o f) {d t : Tid}
    (ho : f.owner = some d) (ht : t ≠ workerTid) (hd : t ≠ d) : f.pc t = .idle := by
  obtain ⟨a, hr, hrel⟩ := SinkFull.rel_refines hcap h
  have hao : a.owner = f.owner := by obtain ⟨he, _⟩ := hrel; rw [he]; rfl
  exact SinkFull.rel_idle_back hrel (((SinkConc.roles_reach hr).owner d (hao.trans ho)).2.2 t ht hd)

theorem owner_not_dead {c : SinkConc.Cfg} {o : Bool} (hcap : 0 < c.capacity) {f : SinkFull.St} (h : SinkFull.Reach c o f) {t : Tid}
    (ho : f.owner = none) (ht : t ≠ workerTid) : f.pc t ≠ .dead := by
  intro hd
  obtain ⟨a, hr, hrel⟩ := SinkFull.rel_refines hcap h
  have hao : a.owner = f.owner := by obtain ⟨he, _⟩ := hrel; rw [he]; rfl
  have h1 := (SinkConc.roles_reach hr).clients (hao.trans ho) t ht
  have h2 : a.pc t = .dead := SinkFull.rel_simple_pc hrel (by rw [hd]; rfl)
  rw [h2] at h1
  cases h1

theorem drain {c : SinkConc.Cfg} {o : Bool} (hcap : 0 < c.capacity) {f : SinkFull.St} (h : SinkFull.Reach c o f) {t : Tid} (ht : t ≠ workerTid) :
    ∃ f', SinkFull.Steps c f f' ∧ quiet (f'.pc t) := by
  cases ho : f.owner with
  | none =>
    obtain ⟨f', h1, h2⟩ := SinkFull.C62_call_can_complete_real_queue c o hcap f h t ht ho
    exact ⟨f', h1, .inl h2⟩
  | some d =>
    by_cases hd : t = d
    · subst hd
      obtain ⟨f', h1, h2⟩ := SinkFull.C62_destructor_can_complete_real_queue c o hcap f h t ho
      exact ⟨f', h1, .inr h2⟩
    · exact ⟨f, .refl f, .inl (others_idle hcap h ho ht hd)⟩

theorem leaf_quiet_step {c : SinkConc.Cfg} {f : SinkFull.St} {t u : Tid} {ch : SinkConc.Ch} (h : quiet (f.pc t)) :
    quiet ((SinkFull.step c f u ch).pc t) := by
  by_cases hu : t = u
  · subst hu
    rcases h with h | h
    · have : SinkFull.step c f t ch = f := by unfold SinkFull.step; rw [h]
      rw [this]; exact .inl h
    · have : SinkFull.step c f t ch = f := by unfold SinkFull.step; rw [h]
      rw [this]; exact .inr h
  · rw [Race.step_pc_other _ _ _ _ _ hu]; exact h

theorem leaf_owner_step {c : SinkConc.Cfg} {f : SinkFull.St} {u : Tid} {ch : SinkConc.Ch} : (SinkFull.step c f u ch).owner = f.owner := by
  unfold SinkFull.step
  dsimp only
  repeat' split
  all_goals rfl

/-! ### a thread is inside at most one sink -/

theorem inside_one {S : Setup} {s : Many.St} (h : Many.Reach S s) {t : Tid} (ht : t ≠ workerTid) : ∃ j, ∀ i, i ≠ j → quiet ((s.leaf i).pc t) := by
  induction h with
  | init debug ord ho =>
    refine ⟨0, fun i _ => .inl ?_⟩
    show (if t = workerTid then _ else _) = _
    rw [if_neg ht]
  | @next s s' _ he ih =>
    obtain ⟨j, hj⟩ := ih
    cases he with
    | system u sys' hu hf hm => exact ⟨j, hj⟩
    | direct u k d hu hf hi => exact ⟨j, hj⟩
    | destroy u k hu hf hi ho hc hn =>
      by_cases hut : t = u
      · subst hut
        refine ⟨k, fun i hi => ?_⟩
        show quiet ((upd s.leaf k _ i).pc t)
        rw [System.upd_other _ _ hi]; exact hf.2 i
      · refine ⟨j, fun i hi => ?_⟩
        show quiet ((upd s.leaf k _ i).pc t)
        by_cases hik : i = k
        · subst hik
          rw [System.upd_same]
          show quiet (upd _ u _ t)
          rw [System.upd_other _ _ hut]; exact hj i hi
        · rw [System.upd_other _ _ hik]; exact hj i hi
    | enter u k q rest call hu hd hf hi ho hs =>
      by_cases hut : t = u
      · subst hut
        refine ⟨k, fun i hi => ?_⟩
        show quiet ((upd s.leaf k _ i).pc t)
        rw [System.upd_other _ _ hi]; exact hf i
      · refine ⟨j, fun i hi' => ?_⟩
        show quiet ((upd s.leaf k _ i).pc t)
        by_cases hik : i = k
        · subst hik
          rw [System.upd_same]
          show quiet (upd _ u _ t)
          rw [System.upd_other _ _ hut]; exact hj i hi'
        · rw [System.upd_other _ _ hik]; exact hj i hi'
    | leaf k u ch =>
      refine ⟨j, fun i hi => ?_⟩
      show quiet ((upd s.leaf k _ i).pc t)
      by_cases hik : i = k
      · subst hik
        rw [System.upd_same]; exact leaf_quiet_step (hj i hi)
      · rw [System.upd_other _ _ hik]; exact hj i hi

/-! ### what the steps of the logging system leave alone -/

theorem conc_step_keeps (s : System.Conc.St) (t : Tid) :
    (System.Conc.step s t).sys.lgr = s.sys.lgr ∧ (System.Conc.step s t).sys.warned = s.sys.warned := by
  unfold System.Conc.step
  repeat' split
  all_goals exact ⟨rfl, rfl⟩

/-- how many steps of the logging system a thread has before it at most -/
def left : System.Conc.PC → Nat
  | .idle => 0
  | .log4 _ => 1
  | .log3 _ => 2
  | .log2 _ _ => 3
  | .log1 _ _ => 4
  | .mkInsert _ _ => 1
  | .mkLevel _ _ => 2
  | .mkSink _ _ => 3
  | .mkInheritLevel _ _ _ => 4
  | .mkInheritSink _ _ _ => 5
  | .mkParent _ => 6

/-- inside a log call or in no call -/
def logging (p : System.Conc.PC) : Prop := p = .idle ∨ (loggerOf p).isSome = true

theorem step_self (s : System.Conc.St) (t : Tid) (h : s.pc t ≠ .idle) :
    left ((System.Conc.step s t).pc t) < left (s.pc t) ∧ (logging (s.pc t) → logging ((System.Conc.step s t).pc t)) ∧
      ∀ l, loggerOf ((System.Conc.step s t).pc t) = some l → loggerOf (s.pc t) = some l := by
  cases hp : s.pc t with
  | idle => exact absurd hp h
  | _ =>
    unfold System.Conc.step
    simp only [hp]
    repeat' split
    all_goals simp [System.Conc.St.goto, System.Conc.St.finish, left, logging, loggerOf]
    all_goals split
    all_goals simp [left, loggerOf]

/-! ### the sinks of a plan -/

theorem asyncPlan_leaves (s : Sink.Snk) : ∀ q ∈ asyncPlan s, q.1 ∈ leaves s := by
  cases s <;> simp [asyncPlan, leaves]

mutual
theorem pushPlan_leaves (S : Setup) (m : Msg) : (s : Sink.Snk) → ∀ q ∈ pushPlan S m s, q.1 ∈ leaves s
  | .leaf i => by intro q hq; simp only [pushPlan] at hq; split at hq <;> simp at hq; subst hq; simp [leaves]
  | .multi lv subs => by
    intro q hq; simp only [pushPlan] at hq
    split at hq
    · simp at hq
    · rw [leaves]; exact pushPlanAll_leaves S m subs q hq
theorem pushPlanAll_leaves (S : Setup) (m : Msg) : (ss : List Sink.Snk) → ∀ q ∈ pushPlanAll S m ss, q.1 ∈ leavesOfAll ss
  | [] => by intro q hq; simp [pushPlanAll] at hq
  | s :: ss => by
    intro q hq
    rw [pushPlanAll, List.mem_append] at hq
    rw [leavesOfAll, List.mem_append]
    rcases hq with hq | hq
    · exact .inl (pushPlan_leaves S m s q hq)
    · exact .inr (pushPlanAll_leaves S m ss q hq)
end

theorem leaves_sub {x : Nat} : ∀ {ss : List Sink.Snk} {s : Sink.Snk}, s ∈ ss → x ∈ leaves s → x ∈ leavesOfAll ss
  | [], s, h, _ => by simp at h
  | a :: ss, s, h, hx => by
    rw [leavesOfAll, List.mem_append]
    rcases List.mem_cons.1 h with h | h
    · subst h; exact .inl hx
    · exact .inr (leaves_sub h hx)

mutual
theorem flushPlan_leaves : (s : Sink.Snk) → ∀ q ∈ flushPlan s, q.1 ∈ leaves s
  | .leaf i => by intro q hq; simp only [flushPlan, List.mem_singleton] at hq; subst hq; simp [leaves]
  | .multi lv subs => by
    intro q hq
    rw [flushPlan, List.mem_append] at hq
    rw [leaves]
    rcases hq with hq | hq
    · obtain ⟨s, h1, h2⟩ := List.mem_flatMap.1 hq
      exact leaves_sub h1 (asyncPlan_leaves s q h2)
    · exact flushPlanAll_leaves subs q hq
theorem flushPlanAll_leaves : (ss : List Sink.Snk) → ∀ q ∈ flushPlanAll ss, q.1 ∈ leavesOfAll ss
  | [] => by intro q hq; simp [flushPlanAll] at hq
  | s :: ss => by
    intro q hq
    rw [flushPlanAll, List.mem_append] at hq
    rw [leavesOfAll, List.mem_append]
    rcases hq with hq | hq
    · exact .inl (flushPlan_leaves s q hq)
    · exact .inr (flushPlanAll_leaves ss q hq)
end

/-- what a step of thread `t` in the logging system adds to its list -/
theorem after_todo {S : Setup} {s : Many.St} {t : Tid} :
    ∀ q ∈ (s.after S t (System.Conc.step s.sys t)).todo t, ∃ l k, loggerOf (s.sys.pc t) = some l ∧ (s.sys.sys.lgr l).sink = some k ∧ q.1 ∈ leaves (S.snk k) := by
  intro q hq
  have h1 : (System.Conc.step s.sys t).out.drop s.sys.out.length = newOut s.sys t := by rw [step_out]; simp
  have h2 : (System.Conc.step s.sys t).sys.warned.drop s.sys.sys.warned.length = [] := by rw [(conc_step_keeps s.sys t).2]; simp
  simp only [St.after, System.upd_same, h1, h2, List.flatMap_nil, List.append_nil] at hq
  unfold newOut at hq
  cases hp : s.sys.pc t with
  | log2 i r =>
    simp only [hp] at hq
    cases hk : (s.sys.sys.lgr i).sink with
    | none => simp [hk, planOf] at hq
    | some k =>
      simp only [hk, List.flatMap_cons, List.flatMap_nil, List.append_nil, planOf] at hq
      exact ⟨i, k, rfl, hk, pushPlan_leaves S _ _ q hq⟩
  | log4 i =>
    simp only [hp] at hq
    cases hk : (s.sys.sys.lgr i).sink with
    | none => simp [hk, planOf] at hq
    | some k =>
      simp only [hk, List.flatMap_cons, List.flatMap_nil, List.append_nil, planOf] at hq
      exact ⟨i, k, rfl, hk, flushPlan_leaves _ q hq⟩
  | _ => simp [hp] at hq

/-! ### what going on keeps -/

theorem kept_go {S : Setup} {s s' : St} (hk : SinksKept S s.prog) (h : Go S s s') : SinksKept S s'.prog := by
  cases h with
  | step t ht hf hb hi hl =>
    intro u i hu
    show (s.prog.leaf i).owner = none
    by_cases hut : u = t
    · subst hut
      rcases hu with ⟨q, hq, hqi⟩ | ⟨l, k, hl, hk1, hk2⟩
      · obtain ⟨l, k, h1, h2, h3⟩ := after_todo (S := S) q hq
        exact hk u i (.inr ⟨l, k, h1, h2, hqi ▸ h3⟩)
      · refine hk u i (.inr ⟨l, k, (step_self _ _ hi).2.2 l hl, ?_, hk2⟩)
        rw [← (conc_step_keeps s.prog.sys u).1]; exact hk1
    · refine hk u i ?_
      rcases hu with ⟨q, hq, hqi⟩ | ⟨l, k, hl, hk1, hk2⟩
      · refine .inl ⟨q, ?_, hqi⟩
        have : (s.prog.after S t (System.Conc.step s.prog.sys t)).todo u = s.prog.todo u := System.upd_other _ _ hut
        rw [← this]; exact hq
      · refine .inr ⟨l, k, ?_, ?_, hk2⟩
        · rw [← step_pc_other s.prog.sys t u hut]; exact hl
        · rw [← (conc_step_keeps s.prog.sys t).1]; exact hk1
  | unlock t hf hb => exact hk
  | configured t hf hi hc hb => exact hk
  | enter t j q rest call ht hd hf hi ho hs =>
    intro u i hu
    have h1 : (s.prog.leaf i).owner = none := by
      refine hk u i ?_
      rcases hu with ⟨p, hp, hpi⟩ | hu
      · refine .inl ⟨p, ?_, hpi⟩
        by_cases hut : u = t
        · subst hut
          have : p ∈ rest := by have h := hp; simp only [System.upd_same] at h; exact h
          rw [hd]; exact List.mem_cons_of_mem _ this
        · have h := hp; simp only [System.upd_other _ _ hut] at h; exact h
      · exact .inr hu
    show (upd s.prog.leaf j _ i).owner = none
    by_cases hij : i = j
    · subst hij; rw [System.upd_same]; exact h1
    · rw [System.upd_other _ _ hij]; exact h1
  | leaf j t ch =>
    intro u i hu
    have h1 : (s.prog.leaf i).owner = none := hk u i hu
    show (upd s.prog.leaf j _ i).owner = none
    by_cases hij : i = j
    · subst hij; rw [System.upd_same, leaf_owner_step]; exact h1
    · rw [System.upd_other _ _ hij]; exact h1

theorem kept_goes {S : Setup} {s s' : St} (hk : SinksKept S s.prog) (h : Goes S s s') : SinksKept S s'.prog := by
  induction h with
  | refl => exact hk
  | more h1 _ ih => exact ih (kept_go hk h1)

theorem rest_go {S : Setup} {s s' : St} {t : Tid} (h : AtRest s t) (hg : Go S s s') : AtRest s' t := by
  obtain ⟨h1, h2, h3, h4⟩ := h
  cases hg with
  | step u hu hf hb hi hl =>
    have hne : t ≠ u := by intro e; subst e; exact hi h1
    refine ⟨?_, ⟨?_, h2.2⟩, ?_, h4⟩
    · show (System.Conc.step s.prog.sys u).pc t = .idle
      rw [step_pc_other _ _ _ hne]; exact h1
    · show upd s.prog.todo u _ t = []
      rw [System.upd_other _ _ hne]; exact h2.1
    · show (if locksAt (s.prog.sys.pc u) then some u else s.busy) ≠ some t
      split
      · intro e; cases e; exact hne rfl
      · exact h3
  | unlock u hf hb => exact ⟨h1, h2, (fun e => by cases e), h4⟩
  | configured u hf hi hc hb => exact ⟨h1, h2, h3, (fun e => by cases e)⟩
  | enter u j q rest call hu hd hf hi ho hs =>
    have hne : t ≠ u := by intro e; subst e; rw [h2.1] at hd; cases hd
    refine ⟨h1, ⟨?_, fun i => ?_⟩, h3, h4⟩
    · show upd s.prog.todo u _ t = []
      rw [System.upd_other _ _ hne]; exact h2.1
    · show quiet ((upd s.prog.leaf j _ i).pc t)
      by_cases hij : i = j
      · subst hij
        rw [System.upd_same]
        show quiet (upd _ u _ t)
        rw [System.upd_other _ _ hne]; exact h2.2 i
      · rw [System.upd_other _ _ hij]; exact h2.2 i
  | leaf j u ch =>
    refine ⟨h1, ⟨h2.1, fun i => ?_⟩, h3, h4⟩
    show quiet ((upd s.prog.leaf j _ i).pc t)
    by_cases hij : i = j
    · subst hij; rw [System.upd_same]; exact leaf_quiet_step (h2.2 i)
    · rw [System.upd_other _ _ hij]; exact h2.2 i

theorem rest_goes {S : Setup} {s s' : St} {t : Tid} (h : AtRest s t) (hg : Goes S s s') : AtRest s' t := by
  induction hg with
  | refl => exact h
  | more h1 _ ih => exact ih (rest_go h h1)

/-! ### out of the sinks -/

theorem out_of_sink {S : Setup} (hS : ∀ i, 0 < (S.leaf i).conc.capacity) {s : St} (hr : Reach S s) {t : Tid} (ht : t ≠ workerTid) :
    ∃ s', Goes S s s' ∧ (∀ i, quiet ((s'.prog.leaf i).pc t)) ∧ s'.prog.sys = s.prog.sys ∧ s'.prog.todo = s.prog.todo ∧ s'.busy = s.busy ∧ s'.conf = s.conf := by
  obtain ⟨j, hj⟩ := inside_one (reach_prog hr) ht
  obtain ⟨f', h1, h2⟩ := drain (hS j) (leaf_reach (reach_prog hr) j) ht
  refine ⟨_, steps_goes h1 s rfl, fun i => ?_, rfl, rfl, rfl, rfl⟩
  show quiet ((upd s.prog.leaf j f' i).pc t)
  by_cases hij : i = j
  · subst hij; rw [System.upd_same]; exact h2
  · rw [System.upd_other _ _ hij]; exact hj i hij

theorem serves_some (c : LeafCfg) (q : Req) : ∃ call, Serves c q call := by
  cases q with
  | push m => exact ⟨_, .push m ⟨0, 0, []⟩⟩
  | flush => exact ⟨_, .flush⟩
  | asyncFlush => exact ⟨_, .asyncFlush⟩
  | rotate => exact ⟨_, .rotate⟩

theorem out_of_sinks {S : Setup} (hS : ∀ i, 0 < (S.leaf i).conc.capacity) {t : Tid} (ht : t ≠ workerTid) : ∀ (l : List (Nat × Req)) (s : St), Reach S s →
    SinksKept S s.prog → s.prog.todo t = l → ∃ s', Goes S s s' ∧ Free s'.prog t ∧ s'.prog.sys = s.prog.sys ∧ s'.busy = s.busy ∧ s'.conf = s.conf
  | [], s, hr, hk, hl => by
    obtain ⟨s', h1, h2, h3, h4, h5, h6⟩ := out_of_sink hS hr ht
    exact ⟨s', h1, ⟨by rw [h4]; exact hl, h2⟩, h3, h5, h6⟩
  | (i, q) :: rest, s, hr, hk, hl => by
    obtain ⟨s1, h1, h2, h3, h4, h5, h6⟩ := out_of_sink hS hr ht
    obtain ⟨call, hs⟩ := serves_some (S.leaf i) q
    have hk1 := kept_goes hk h1
    have hd : s1.prog.todo t = (i, q) :: rest := by rw [h4]; exact hl
    have ho : (s1.prog.leaf i).owner = none := hk1 t i (.inl ⟨(i, q), by rw [hd]; exact List.mem_cons_self, rfl⟩)
    have hi : (s1.prog.leaf i).pc t = .idle := by
      rcases h2 i with h | h
      · exact h
      · exact absurd h (owner_not_dead (hS i) (leaf_reach (reach_prog (h1.reach hr)) i) ho ht)
    have hg := Go.enter (S := S) s1 t i q rest call ht hd h2 hi ho hs
    obtain ⟨s2, g1, g2, g3, g4, g5⟩ := out_of_sinks hS ht rest _ (.next (h1.reach hr) (.go hg)) (kept_go hk1 hg) (System.upd_same _ _ _)
    exact ⟨s2, h1.trans (.more hg g1), g2, g3.trans h3, g4.trans h5, g5.trans h6⟩

/-! ### out of the logging system -/

theorem logging_no_lock {p : System.Conc.PC} (h : logging p) : locksAt p = false := by
  rcases h with h | h
  · subst h; rfl
  · cases p <;> first | rfl | (simp [loggerOf] at h)

theorem out_of_call {S : Setup} (hS : ∀ i, 0 < (S.leaf i).conc.capacity) {t : Tid} (ht : t ≠ workerTid) : ∀ (n : Nat) (s : St), Reach S s →
    SinksKept S s.prog → left (s.prog.sys.pc t) ≤ n → s.busy ≠ some t → (logging (s.prog.sys.pc t) ∨ CanLock s t) →
    ∃ s', Goes S s s' ∧ s'.prog.sys.pc t = .idle ∧ Free s'.prog t ∧ s'.busy = s.busy ∧ s'.conf = s.conf := by
  intro n
  induction n with
  | zero =>
    intro s hr hk hn hb hl
    obtain ⟨s1, h1, h2, h3, h4, h5⟩ := out_of_sinks hS ht _ s hr hk rfl
    refine ⟨s1, h1, ?_, h2, h4, h5⟩
    rw [h3]
    cases hp : s.prog.sys.pc t with
    | idle => rfl
    | _ => rw [hp] at hn; simp [left] at hn
  | succ n ih =>
    intro s hr hk hn hb hl
    obtain ⟨s1, h1, h2, h3, h4, h5⟩ := out_of_sinks hS ht _ s hr hk rfl
    have hr1 := h1.reach hr
    have hk1 := kept_goes hk h1
    by_cases hi : s1.prog.sys.pc t = .idle
    · exact ⟨s1, h1, hi, h2, h4, h5⟩
    · have hlock : locksAt (s1.prog.sys.pc t) = true → CanLock s1 t := by
        intro hla
        rcases hl with hl | hl
        · rw [h3] at hla; rw [logging_no_lock hl] at hla; cases hla
        · exact ⟨h4.trans hl.1, by rw [h5]; exact hl.2⟩
      have hg := Go.step (S := S) s1 t ht h2 (by rw [h4]; exact hb) hi hlock
      have hr2 := Reach.next hr1 (.go hg)
      have hk2 := kept_go hk1 hg
      have hlt := step_self s1.prog.sys t hi
      have hn2 : left ((System.Conc.step s1.prog.sys t).pc t) ≤ n := by
        have := hlt.1; rw [h3] at this ⊢; omega
      cases hla : locksAt (s1.prog.sys.pc t) with
      | false =>
        rw [if_neg (by rw [hla]; simp)] at hg hr2
        obtain ⟨s2, g1, g2, g3, g4, g5⟩ := ih _ hr2 hk2 hn2 (by show s1.busy ≠ some t; rw [h4]; exact hb) (by
          rcases hl with hl | hl
          · left; rw [← h3] at hl; exact hlt.2.1 hl
          · right; exact ⟨h4.trans hl.1, by show s1.conf = none ∨ s1.conf = some t; rw [h5]; exact hl.2⟩)
        exact ⟨s2, h1.trans (.more hg g1), g2, g3, g4.trans h4, g5.trans h5⟩
      | true =>
        rw [if_pos hla] at hg hr2
        have hk2 := kept_go hk1 hg
        obtain ⟨s2, g1, g2, g3, g4, g5⟩ := out_of_sinks hS ht _ _ hr2 hk2 rfl
        have hu := Go.unlock (S := S) s2 t g2 g4
        have hr3 := g1.reach hr2
        have hk3 := kept_goes hk2 g1
        have hb1 : s1.busy = none := (hlock hla).1
        obtain ⟨s4, f1, f2, f3, f4, f5⟩ := ih _ (.next hr3 (.go hu)) (kept_go hk3 hu) (by show left (s2.prog.sys.pc t) ≤ n; rw [g3]; exact hn2)
          (fun e => by cases e) (.inr ⟨rfl, by show s2.conf = none ∨ s2.conf = some t; rw [g5]; exact (hlock hla).2⟩)
        exact ⟨s4, h1.trans (.more hg (g1.trans (.more hu f1))), f2, f3, f4.trans (hb1.symm.trans h4), f5.trans (g5.trans h5)⟩

/-! ### the mutex -/

theorem holders {S : Setup} {s : St} (h : Reach S s) : s.busy ≠ some workerTid ∧ s.conf ≠ some workerTid := by
  induction h with
  | init debug ord ho => exact ⟨(fun e => by cases e), (fun e => by cases e)⟩
  | @next s s' _ he ih =>
    cases he with
    | go hg =>
      cases hg with
      | step t ht hf hb hi hl =>
        refine ⟨?_, ih.2⟩
        show (if _ then some t else s.busy) ≠ _
        split
        · intro e; cases e; exact ht rfl
        · exact ih.1
      | unlock t hf hb => exact ⟨(fun e => by cases e), ih.2⟩
      | configured t hf hi hc hb => exact ⟨ih.1, (fun e => by cases e)⟩
      | enter => exact ih
      | leaf => exact ih
    | call t op fuel o sys' ht hf hb hi hm hl hc =>
      refine ⟨?_, ih.2⟩
      show (if _ then some t else s.busy) ≠ _
      split
      · intro e; cases e; exact ht rfl
      · exact ih.1
    | configure t ht hf hi hb hc hn => exact ⟨ih.1, (fun e => by cases e; exact ht rfl)⟩
    | makeGroup => exact ih
    | log => exact ih
    | flush => exact ih
    | direct => exact ih
    | destroy => exact ih

theorem mutex_free {S : Setup} (hS : ∀ i, 0 < (S.leaf i).conc.capacity) {s : St} (hr : Reach S s) (hk : SinksKept S s.prog) :
    ∃ s', Goes S s s' ∧ s'.busy = none ∧ s'.conf = none := by
  have hA : ∃ s', Goes S s s' ∧ s'.busy = none := by
    cases hb : s.busy with
    | none => exact ⟨s, .refl s, hb⟩
    | some u =>
      obtain ⟨s1, h1, h2, h3, h4, h5⟩ := out_of_sinks hS (t := u) (fun e => (holders hr).1 (e ▸ hb)) _ s hr hk rfl
      exact ⟨_, h1.trans (.one (.unlock s1 u h2 (h4.trans hb))), rfl⟩
  obtain ⟨s1, h1, hb⟩ := hA
  cases hc : s1.conf with
  | none => exact ⟨s1, h1, hb, hc⟩
  | some u =>
    have hr1 := h1.reach hr
    obtain ⟨s2, g1, g2, g3, g4, g5⟩ := out_of_call hS (t := u) (fun e => (holders hr1).2 (e ▸ hc)) _ s1 hr1 (kept_goes hk h1) (Nat.le_refl _)
      (by rw [hb]; exact (fun e => by cases e)) (.inr ⟨hb, .inr hc⟩)
    have hb2 : s2.busy = none := g4.trans hb
    exact ⟨_, h1.trans (g1.trans (.one (.configured s2 u g3 g2 (g5.trans hc) (by rw [hb2]; exact (fun e => by cases e))))), hb2, rfl⟩

theorem one_ends {S : Setup} (hS : ∀ i, 0 < (S.leaf i).conc.capacity) {s : St} (hr : Reach S s) (hk : SinksKept S s.prog) {t : Tid} (ht : t ≠ workerTid) :
    ∃ s', Goes S s s' ∧ AtRest s' t := by
  obtain ⟨s1, h1, h2, h3⟩ := mutex_free hS hr hk
  obtain ⟨s2, g1, g2, g3, g4, g5⟩ := out_of_call hS ht _ s1 (h1.reach hr) (kept_goes hk h1) (Nat.le_refl _) (by rw [h2]; exact (fun e => by cases e))
    (.inr ⟨h2, .inl h3⟩)
  exact ⟨s2, h1.trans g1, g2, g3, (by rw [g4, h2]; exact (fun e => by cases e)), (by rw [g5, h3]; exact (fun e => by cases e))⟩

/-! ### all threads -/

theorem few_threads {S : Setup} {s : St} (h : Reach S s) : ∃ ts : List Tid, ∀ t, t ≠ workerTid → t ∉ ts → AtRest s t := by
  induction h with
  | init debug ord ho =>
    refine ⟨[], fun t ht _ => ⟨rfl, ⟨rfl, fun i => .inl ?_⟩, (fun e => by cases e), (fun e => by cases e)⟩⟩
    show (if t = workerTid then _ else _) = _
    rw [if_neg ht]
  | @next s s' _ he ih =>
    obtain ⟨ts, ih⟩ := ih
    cases he with
    | go hg => exact ⟨ts, fun t ht hn => rest_go (ih t ht hn) hg⟩
    | call u op fuel o sys' hu hf hb hi hm hl hc =>
      refine ⟨u :: ts, fun t ht hn => ?_⟩
      have hne : t ≠ u := fun e => hn (e ▸ List.mem_cons_self)
      obtain ⟨h1, h2, h3, h4⟩ := ih t ht (fun e => hn (List.mem_cons_of_mem _ e))
      refine ⟨?_, ⟨?_, h2.2⟩, ?_, h4⟩
      · show upd s.prog.sys.pc u _ t = .idle
        rw [System.upd_other _ _ hne]; exact h1
      · show upd s.prog.todo u _ t = []
        rw [System.upd_other _ _ hne]; exact h2.1
      · show (if _ then some u else s.busy) ≠ _
        split
        · intro e; cases e; exact hne rfl
        · exact h3
    | configure u hu hf hi hb hc hn =>
      refine ⟨u :: ts, fun t ht hn => ?_⟩
      have hne : t ≠ u := fun e => hn (e ▸ List.mem_cons_self)
      obtain ⟨h1, h2, h3, h4⟩ := ih t ht (fun e => hn (List.mem_cons_of_mem _ e))
      refine ⟨h1, ⟨?_, h2.2⟩, h3, (fun e => by cases e; exact hne rfl)⟩
      show upd s.prog.todo u _ t = []
      rw [System.upd_other _ _ hne]; exact h2.1
    | makeGroup u a hu hf hb hi =>
      refine ⟨u :: ts, fun t ht hn => ?_⟩
      have hne : t ≠ u := fun e => hn (e ▸ List.mem_cons_self)
      obtain ⟨h1, h2, h3, h4⟩ := ih t ht (fun e => hn (List.mem_cons_of_mem _ e))
      refine ⟨?_, ⟨?_, h2.2⟩, h3, h4⟩
      · show upd s.prog.sys.pc u _ t = .idle
        rw [System.upd_other _ _ hne]; exact h1
      · show upd s.prog.todo u _ t = []
        rw [System.upd_other _ _ hne]; exact h2.1
    | log u i r hu hf hb hi ha =>
      refine ⟨u :: ts, fun t ht hn => ?_⟩
      have hne : t ≠ u := fun e => hn (e ▸ List.mem_cons_self)
      obtain ⟨h1, h2, h3, h4⟩ := ih t ht (fun e => hn (List.mem_cons_of_mem _ e))
      refine ⟨?_, ⟨?_, h2.2⟩, h3, h4⟩
      · show upd s.prog.sys.pc u _ t = .idle
        rw [System.upd_other _ _ hne]; exact h1
      · show upd s.prog.todo u _ t = []
        rw [System.upd_other _ _ hne]; exact h2.1
    | flush u i hu hf hb hi ha =>
      refine ⟨u :: ts, fun t ht hn => ?_⟩
      have hne : t ≠ u := fun e => hn (e ▸ List.mem_cons_self)
      obtain ⟨h1, h2, h3, h4⟩ := ih t ht (fun e => hn (List.mem_cons_of_mem _ e))
      refine ⟨?_, ⟨?_, h2.2⟩, h3, h4⟩
      · show upd s.prog.sys.pc u _ t = .idle
        rw [System.upd_other _ _ hne]; exact h1
      · show upd s.prog.todo u _ t = []
        rw [System.upd_other _ _ hne]; exact h2.1
    | direct u k d hu hf hb hi =>
      refine ⟨u :: ts, fun t ht hn => ?_⟩
      have hne : t ≠ u := fun e => hn (e ▸ List.mem_cons_self)
      obtain ⟨h1, h2, h3, h4⟩ := ih t ht (fun e => hn (List.mem_cons_of_mem _ e))
      refine ⟨h1, ⟨?_, h2.2⟩, h3, h4⟩
      show upd s.prog.todo u _ t = []
      rw [System.upd_other _ _ hne]; exact h2.1
    | destroy u i hu hf hi ho hc hn =>
      refine ⟨u :: ts, fun t ht hn => ?_⟩
      have hne : t ≠ u := fun e => hn (e ▸ List.mem_cons_self)
      obtain ⟨h1, h2, h3, h4⟩ := ih t ht (fun e => hn (List.mem_cons_of_mem _ e))
      refine ⟨h1, ⟨h2.1, fun j => ?_⟩, h3, h4⟩
      show quiet ((upd s.prog.leaf i _ j).pc t)
      by_cases hij : j = i
      · subst hij
        rw [System.upd_same]
        show quiet (upd _ u _ t)
        rw [System.upd_other _ _ hne]; exact h2.2 j
      · rw [System.upd_other _ _ hij]; exact h2.2 j

theorem all_end {S : Setup} (hS : ∀ i, 0 < (S.leaf i).conc.capacity) {s : St} (hr : Reach S s) (hk : SinksKept S s.prog) :
    ∃ s', Goes S s s' ∧ ∀ t, t ≠ workerTid → AtRest s' t := by
  obtain ⟨ts, hts⟩ := few_threads hr
  have : ∀ (l : List Tid) (s : St), Reach S s → SinksKept S s.prog → ∃ s', Goes S s s' ∧ ∀ t, t ≠ workerTid → t ∈ l → AtRest s' t := by
    intro l
    induction l with
    | nil => intro s _ _; exact ⟨s, .refl s, fun t _ h => by cases h⟩
    | cons u l ih =>
      intro s hr hk
      by_cases hu : u = workerTid
      · obtain ⟨s', h1, h2⟩ := ih s hr hk
        refine ⟨s', h1, fun t ht hm => ?_⟩
        rcases List.mem_cons.1 hm with e | e
        · exact absurd (e.trans hu) ht
        · exact h2 t ht e
      · obtain ⟨s1, h1, h2⟩ := one_ends hS hr hk hu
        obtain ⟨s', g1, g2⟩ := ih s1 (h1.reach hr) (kept_goes hk h1)
        refine ⟨s', h1.trans g1, fun t ht hm => ?_⟩
        rcases List.mem_cons.1 hm with e | e
        · rw [e]; exact rest_goes h2 g1
        · exact g2 t ht e
  obtain ⟨s', h1, h2⟩ := this ts s hr hk
  refine ⟨s', h1, fun t ht => ?_⟩
  by_cases hm : t ∈ ts
  · exact h2 t ht hm
  · exact rest_goes (hts t ht hm) h1

end Lock
end Many
end Soralog
