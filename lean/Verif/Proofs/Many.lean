import Verif.Spec.Many
import Verif.Props.SinkFull
import Verif.Proofs.SinkTree
import Verif.Proofs.SystemConc
import Verif.Proofs.Whole
import Verif.Props.SystemCalls
/-!
# Proofs about programs with many threads
-/
namespace Soralog
namespace Many
open Spec
open SinkFull (acceptedFrom owed)
open Sink (route_leaf route_multi routeAll routeAll_cons rejects_iff deliveries_eq)

/-! ### `Matches` -/

theorem Matches.length_eq {α β : Type} {rel : α → β → Prop} {as : List α} {bs : List β} (h : Matches rel as bs) : as.length = bs.length := by
  induction h with
  | nil => rfl
  | cons _ _ ih => simp [ih]

theorem Matches.append {α β : Type} {rel : α → β → Prop} {as as' : List α} {bs bs' : List β} (h : Matches rel as bs) (h' : Matches rel as' bs') :
    Matches rel (as ++ as') (bs ++ bs') := by
  induction h with
  | nil => exact h'
  | cons hr _ ih => exact .cons hr ih

theorem Matches.split {α β : Type} {rel : α → β → Prop} {as as' : List α} {bs : List β} (h : Matches rel (as ++ as') bs) :
    Matches rel as (bs.take as.length) ∧ Matches rel as' (bs.drop as.length) := by
  induction as generalizing bs with
  | nil => exact ⟨.nil, h⟩
  | cons a as ih =>
    cases h with
    | cons hr h => obtain ⟨h1, h2⟩ := ih h; exact ⟨.cons hr h1, h2⟩

/-! ### what a list of calls pushes to a sink -/

/-- the messages a list of calls pushes to sink `i` -/
def pend (i : Nat) (l : List (Nat × Req)) : List Msg :=
  l.filterMap fun q => match q with
    | (j, .push m) => if j = i then some m else none
    | _ => none

theorem pend_append (i : Nat) (a b : List (Nat × Req)) : pend i (a ++ b) = pend i a ++ pend i b := by simp [pend]

mutual
theorem pend_push (S : Setup) (m : Msg) (i : Nat) : (s : Sink.Snk) →
    pend i (pushPlan S m s) = if Admits (S.level i) m.level then List.replicate ((route s m.level).count i) m else []
  | .leaf j => by
    rw [pushPlan, route_leaf]
    by_cases h : Admits (S.leaf j).level m.level
    · rw [(rejects_iff _ _).2 h]
      by_cases hj : j = i
      · subst hj
        have h' : Admits (S.level j) m.level := h
        simp [pend, h']
      · simp [pend, hj]
    · have : Sink.rejects (S.leaf j).level m.level = true := by
        cases hr : Sink.rejects (S.leaf j).level m.level with
        | true => rfl
        | false => exact absurd ((rejects_iff _ _).1 hr) h
      rw [this]
      by_cases hj : j = i
      · subst hj
        have h' : ¬ Admits (S.level j) m.level := h
        simp [pend, h']
      · simp [pend, hj]
  | .multi lv subs => by
    rw [pushPlan, route_multi]
    by_cases h : Admits lv m.level
    · rw [(rejects_iff _ _).2 h, if_pos h]
      exact pend_pushAll S m i subs
    · have : Sink.rejects lv m.level = true := by
        cases hr : Sink.rejects lv m.level with
        | true => rfl
        | false => exact absurd ((rejects_iff _ _).1 hr) h
      rw [this, if_neg h]
      simp [pend]
theorem pend_pushAll (S : Setup) (m : Msg) (i : Nat) : (ss : List Sink.Snk) →
    pend i (pushPlanAll S m ss) = if Admits (S.level i) m.level then List.replicate ((routeAll ss m.level).count i) m else []
  | [] => by simp [pushPlanAll, pend, routeAll, pathsOfAll]
  | s :: ss => by
    rw [pushPlanAll, pend_append, pend_push S m i s, pend_pushAll S m i ss, routeAll_cons]
    split
    · rw [List.count_append, List.replicate_append_replicate]
    · rfl
end

theorem pend_deliveries (S : Setup) (m : Msg) (i : Nat) (s : Sink.Snk) :
    pend i (pushPlan S m s) = List.replicate (deliveries s S.level m.level i) m := by
  rw [pend_push, deliveries_eq]
  split <;> rfl

theorem pend_async (i : Nat) (s : Sink.Snk) : pend i (asyncPlan s) = [] := by cases s <;> rfl

theorem pend_asyncs (i : Nat) (ss : List Sink.Snk) : pend i (ss.flatMap asyncPlan) = [] := by
  induction ss with
  | nil => rfl
  | cons s ss ih => rw [List.flatMap_cons, pend_append, pend_async, ih]; rfl

mutual
theorem pend_flush (i : Nat) : (s : Sink.Snk) → pend i (flushPlan s) = []
  | .leaf _ => rfl
  | .multi _ subs => by rw [flushPlan, pend_append, pend_asyncs, pend_flushAll i subs]; rfl
theorem pend_flushAll (i : Nat) : (ss : List Sink.Snk) → pend i (flushPlanAll ss) = []
  | [] => rfl
  | s :: ss => by rw [flushPlanAll, pend_append, pend_flush i s, pend_flushAll i ss]; rfl
end

mutual
theorem pend_rotate (i : Nat) : (s : Sink.Snk) → pend i (rotatePlan s) = []
  | .leaf _ => rfl
  | .multi _ subs => by rw [rotatePlan, pend_rotateAll i subs]
theorem pend_rotateAll (i : Nat) : (ss : List Sink.Snk) → pend i (rotatePlanAll ss) = []
  | [] => rfl
  | s :: ss => by rw [rotatePlanAll, pend_append, pend_rotate i s, pend_rotateAll i ss]; rfl
end

/-! ### steps in the logging system -/

theorem Moves.exec {t : Tid} {s s' : System.Conc.St} (h : Moves t s s') : System.Conc.Exec s s' := by
  cases h with
  | call op fuel v sys' hi hm hc => exact .call s t op fuel v sys' hi hm hc
  | failed op fuel sys' hi hm hc => exact .failed s t op fuel sys' hi hm hc
  | configuring hi => exact .configuring s t hi
  | makeGroup a hi => exact .makeGroup s t a hi
  | log i r hi ha => exact .log s t i r hi ha
  | flush i hi ha => exact .flush s t i hi ha
  | step hi => exact .step s t hi

theorem exec_moves {s s' : System.Conc.St} (h : System.Conc.Exec s s') : ∃ t, Moves t s s' := by
  cases h with
  | call t op fuel v sys' hi hm hc => exact ⟨t, .call s op fuel v sys' hi hm hc⟩
  | failed t op fuel sys' hi hm hc => exact ⟨t, .failed s op fuel sys' hi hm hc⟩
  | configuring t hi => exact ⟨t, .configuring s hi⟩
  | makeGroup t a hi => exact ⟨t, .makeGroup s a hi⟩
  | log t i r hi ha => exact ⟨t, .log s i r hi ha⟩
  | flush t i hi ha => exact ⟨t, .flush s i hi ha⟩
  | step t hi => exact ⟨t, .step s hi⟩

/-- the calls of sinks a step makes -/
def newOut (s : System.Conc.St) (t : Tid) : List System.Conc.SinkCall :=
  match s.pc t with
  | .log2 i r => match (s.sys.lgr i).sink with
    | none => [.null t]
    | some k => [.push t k r]
  | .log4 i => match (s.sys.lgr i).sink with
    | none => [.null t]
    | some k => [.flush t k]
  | _ => []

theorem step_out (s : System.Conc.St) (t : Tid) : (System.Conc.step s t).out = s.out ++ newOut s t := by
  unfold System.Conc.step newOut
  cases hp : s.pc t <;> dsimp only <;> (repeat' split) <;> simp_all [System.Conc.St.finish, System.Conc.St.goto]

theorem step_pc_other (s : System.Conc.St) (t u : Tid) (h : u ≠ t) : (System.Conc.step s t).pc u = s.pc u := by
  unfold System.Conc.step
  cases hp : s.pc t <;> dsimp only <;> (repeat' split) <;> simp [System.Conc.St.finish, System.Conc.St.goto, upd, h]

theorem Moves.out {t : Tid} {s s' : System.Conc.St} (h : Moves t s s') : s'.out = s.out ++ newOut s t := by
  cases h with
  | call op fuel v sys' hi hm hc => simp [newOut, hi, System.Conc.St.finish]
  | failed op fuel sys' hi hm hc => simp [newOut, hi, System.Conc.St.finish]
  | configuring hi => simp [newOut, hi]
  | makeGroup a hi => simp [newOut, hi, System.Conc.St.goto]
  | log i r hi ha => simp [newOut, hi, System.Conc.St.goto]
  | flush i hi ha => simp [newOut, hi, System.Conc.St.goto]
  | step hi => exact step_out s t

theorem newOut_thread (s : System.Conc.St) (t : Tid) : ∀ c ∈ newOut s t, c.thread = t := by
  intro c hc
  unfold newOut at hc
  (repeat' split at hc) <;> simp at hc <;> (subst hc; rfl)

theorem Moves.pc_other {t : Tid} {s s' : System.Conc.St} (h : Moves t s s') {u : Tid} (hu : u ≠ t) : s'.pc u = s.pc u := by
  cases h with
  | step hi => exact step_pc_other s t u hu
  | _ => simp [System.Conc.St.finish, System.Conc.St.goto, upd, hu]

/-! ### names of loggers and the warnings -/

/-- loggers keep their names; warnings are only added -/
structure Named (s y : System.Sys) : Prop where
  size : s.nloggers ≤ y.nloggers
  name : ∀ i, i < s.nloggers → (y.lgr i).name = (s.lgr i).name
  warned : s.warned <+: y.warned

theorem Named.refl (s : System.Sys) : Named s s := ⟨Nat.le_refl _, fun _ _ => rfl, List.prefix_refl _⟩

theorem propagate_named {F : Nat} {stop : System.Group → Bool} {f : System.Change} {up : (Nat → System.Group) → System.Logger → System.Logger}
    {g : Nat} {s y : System.Sys} (hup : ∀ h l, (up h l).name = l.name) (h : System.propagate F stop f up g s = some y) : Named s y := by
  unfold System.propagate at h
  split at h
  · cases h
  · cases h
    refine ⟨Nat.le_refl _, fun i _ => ?_, List.prefix_refl _⟩
    show (if _ then _ else _ : System.Logger).name = _
    (repeat' split) <;> first | rfl | exact hup _ _

theorem call_name (l : System.Logger) (h : Nat → System.Group) (m : System.Method) : (l.call h m).name = l.name := (System.call_shape l h m).1

theorem levelPtr_named {F g : Nat} {l : Option Level} {s y : System.Sys} (h : System.setLevelOfGroupPtr F g l s = some y) : Named s y := by
  unfold System.setLevelOfGroupPtr at h
  have := propagate_named (fun h l => by split <;> first | rfl | exact call_name l h (.setLevelFromGroup l.group)) h
  exact ⟨this.1, this.2, this.3⟩
theorem sinkPtr_named {F g : Nat} {l : Option Nat} {s y : System.Sys} (h : System.setSinkOfGroupPtr F g l s = some y) : Named s y := by
  unfold System.setSinkOfGroupPtr at h
  have := propagate_named (fun h l => by split <;> first | rfl | exact call_name l h (.setSinkFromGroup l.group)) h
  exact ⟨this.1, this.2, this.3⟩
theorem parentPtr_named {F g : Nat} {l : Option Nat} {s y : System.Sys} (h : System.setParentOfGroupPtr F g l s = some y) : Named s y := by
  unfold System.setParentOfGroupPtr at h
  have := propagate_named (fun h l => call_name l h (.setGroup l.group)) h
  exact ⟨this.1, this.2, this.3⟩

theorem warnThrough_warned {g : Nat} {w : Nat → System.Warning} {s s' : System.Sys} (h : System.warnThrough g w s = some s') :
    s.warned <+: s'.warned := by
  obtain ⟨ws, rfl, rfl | ⟨k, _, rfl⟩⟩ := System.warnThrough_spec h
  · exact List.prefix_refl _
  · exact List.prefix_append _ _

theorem getLogger_warned {name group : Text} {sink : Option Text} {level : Option Level} {s s' : System.Sys} {i : Nat}
    (h : System.getLogger name group sink level s = .ret i s') : s.warned <+: s'.warned := by
  rw [System.getLogger_unfold] at h
  split at h
  · cases h
  split at h
  · cases h; exact List.prefix_refl _
  split at h
  · cases h
  split at h
  · cases h
  · rename_i s1 hs1
    have h1 : s.warned <+: s1.warned := by
      split at hs1
      · rw [Option.bind_eq_some_iff] at hs1
        obtain ⟨f, _, h2⟩ := hs1
        exact warnThrough_warned h2
      · cases hs1; exact List.prefix_refl _
    split at h
    · cases h
    · rename_i g s2 hs2
      have h2 : s1.warned <+: s2.warned := by
        split at hs2
        · cases hs2; exact List.prefix_refl _
        · rw [Option.bind_eq_some_iff] at hs2
          obtain ⟨f, _, h2⟩ := hs2
          rw [Option.map_eq_some_iff] at h2
          obtain ⟨s3, h3, h4⟩ := h2
          cases h4
          exact warnThrough_warned h3
      cases h
      exact h1.trans h2

theorem onLogger_named {name : Text} {erases : Bool} {up : System.Logger → System.Logger} {s y : System.Sys} {v : System.Val}
    (hup : ∀ l, (up l).name = l.name) (h : (System.onLogger name erases up s).map System.Val.bool = .ret v y) : Named s y := by
  obtain ⟨b, hb, _⟩ := System.map_ret h
  rcases System.onLogger_ret hb with ⟨_, i, h1, h2, rfl⟩ | ⟨_, rfl | ⟨i, h1, h2, rfl⟩⟩
  · refine ⟨Nat.le_refl _, fun j _ => ?_, List.prefix_refl _⟩
    show (upd s.lgr i _ j).name = _
    by_cases hj : j = i
    · subst hj; rw [System.upd_same]; exact hup _
    · rw [System.upd_other _ _ hj]
  · exact .refl _
  · exact ⟨Nat.le_refl _, fun _ _ => rfl, List.prefix_refl _⟩

theorem ofOption_named {s y : System.Sys} {o : Option System.Sys} {v : System.Val} (ho : ∀ y, o = some y → Named s y)
    (h : (System.ofOption o).map System.Val.bool = .ret v y) : Named s y :=
  System.Conc.ofOption_cases (P := Named s) ho (.inl h)

theorem step_named {F : Nat} {s y : System.Sys} {op : System.Op} {v : System.Val} (h : System.step F s op = .ret v y) : Named s y := by
  have href : ∀ {b : Bool}, (System.Res.ret b s).map System.Val.bool = .ret v y → Named s y := by
    intro b h; cases h; exact .refl _
  cases op with
  | makeSink n => cases h; exact ⟨Nat.le_refl _, fun _ _ => rfl, List.prefix_refl _⟩
  | makeGroup n p k l =>
    obtain ⟨i, h1, _⟩ := System.map_ret h
    simp only [System.makeGroup] at h1
    revert h1
    repeat' split
    all_goals (intro h1; cases h1)
    all_goals exact ⟨Nat.le_refl _, fun _ _ => rfl, List.prefix_refl _⟩
  | setFallbackGroup n =>
    simp only [System.step, System.setFallbackGroup] at h
    revert h
    split <;> intro h <;> cases h
    · exact .refl _
    · exact ⟨Nat.le_refl _, fun _ _ => rfl, List.prefix_refl _⟩
  | getLogger n g k l =>
    obtain ⟨i, h1, _⟩ := System.map_ret h
    have hw := getLogger_warned h1
    rcases (System.getLogger_ret h1).2 with ⟨_, rfl⟩ | ⟨_, _, g, ws, _, rfl⟩
    · exact .refl _
    · refine ⟨Nat.le_succ _, fun j hj => ?_, hw⟩
      show (upd s.lgr s.nloggers _ j).name = _
      rw [System.upd_other _ _ (Nat.ne_of_lt hj)]
  | setParentOfGroup g p =>
    simp only [System.step, System.setParentOfGroup] at h
    revert h
    (repeat' split) <;> intro h <;> first | exact href h | exact ofOption_named (fun y hy => parentPtr_named hy) h | cases h
  | unsetParentOfGroup g =>
    simp only [System.step, System.unsetParentOfGroup] at h
    revert h
    (repeat' split) <;> intro h <;> first | exact href h | exact ofOption_named (fun y hy => parentPtr_named hy) h
  | setSinkOfGroup g k =>
    simp only [System.step, System.setSinkOfGroup] at h
    revert h
    (repeat' split) <;> intro h <;> first | exact href h | exact ofOption_named (fun y hy => sinkPtr_named hy) h
  | resetSinkOfGroup g =>
    simp only [System.step, System.resetSinkOfGroup] at h
    revert h
    (repeat' split) <;> intro h <;> first | exact href h | exact ofOption_named (fun y hy => sinkPtr_named hy) h
  | setLevelOfGroup g l =>
    simp only [System.step, System.setLevelOfGroup] at h
    revert h
    (repeat' split) <;> intro h <;> first | exact href h | exact ofOption_named (fun y hy => levelPtr_named hy) h
  | resetLevelOfGroup g =>
    simp only [System.step, System.resetLevelOfGroup] at h
    revert h
    (repeat' split) <;> intro h <;> first | exact href h | exact ofOption_named (fun y hy => levelPtr_named hy) h
  | setGroupOfLogger l g =>
    simp only [System.step, System.setGroupOfLogger] at h
    revert h
    split <;> intro h
    · exact href h
    · exact onLogger_named (fun l => call_name l s.grp (.setGroup _)) h
  | setSinkOfLogger l g =>
    simp only [System.step, System.setSinkOfLogger] at h
    revert h
    split <;> intro h
    · exact href h
    · exact onLogger_named (fun l => call_name l s.grp (.setSink _)) h
  | resetSinkOfLogger l => exact onLogger_named (fun l => call_name l s.grp (.setSinkFromGroup l.group)) h
  | setLevelOfLogger l x => exact onLogger_named (fun l => call_name l s.grp (.setLevel x)) h
  | resetLevelOfLogger l => exact onLogger_named (fun l => call_name l s.grp (.setLevelFromGroup l.group)) h
  | onHandle i m =>
    simp only [System.step] at h
    revert h
    split <;> intro h <;> cases h
    · refine ⟨Nat.le_refl _, fun j _ => ?_, List.prefix_refl _⟩
      show (upd s.lgr i _ j).name = _
      by_cases hj : j = i
      · subst hj; rw [System.upd_same]; exact call_name _ _ _
      · rw [System.upd_other _ _ hj]
    · exact .refl _
  | drop i => cases h; exact ⟨Nat.le_refl _, fun _ _ => rfl, List.prefix_refl _⟩

theorem concStep_named (s : System.Conc.St) (t : Tid) : Named s.sys (System.Conc.step s t).sys := by
  unfold System.Conc.step
  cases hp : s.pc t <;> dsimp only <;> (repeat' split) <;>
    exact ⟨Nat.le_refl _, fun _ _ => rfl, List.prefix_refl _⟩

theorem Moves.named {t : Tid} {s s' : System.Conc.St} (h : Moves t s s') : Named s.sys s'.sys := by
  cases h with
  | call op fuel v sys' hi hm hc => exact step_named hc
  | failed op fuel sys' hi hm hc => rw [Whole.step_throw hc]; exact .refl _
  | configuring hi => exact ⟨Nat.le_refl _, fun _ _ => rfl, List.prefix_refl _⟩
  | makeGroup a hi => exact .refl _
  | log i r hi ha => exact .refl _
  | flush i hi ha => exact .refl _
  | step hi => exact concStep_named s t

/-! ### the parts are executions of their own models -/

theorem leaf_reach {S : Setup} {s : St} (h : Reach S s) (i : Nat) : SinkFull.Reach (S.leaf i).conc (S.leaf i).opened (s.leaf i) := by
  induction h with
  | init debug ord ho => exact .init
  | @next s s' h he ih =>
    cases he with
    | system t sys' ht hf hm => exact ih
    | direct t k d ht hf hi => exact ih
    | destroy t j ht hf hi ho hc hn =>
      by_cases hj : i = j
      · subst hj
        show SinkFull.Reach _ _ (upd s.leaf i _ i)
        rw [System.upd_same]
        exact .next ih (.destroy _ t ht ho hc)
      · show SinkFull.Reach _ _ (upd s.leaf j _ i)
        rw [System.upd_other _ _ hj]; exact ih
    | enter t j q rest call ht hd hf hi ho hs =>
      by_cases hj : i = j
      · subst hj
        show SinkFull.Reach _ _ (upd s.leaf i _ i)
        rw [System.upd_same]
        exact .next ih (.call _ t ht hi ho call)
      · show SinkFull.Reach _ _ (upd s.leaf j _ i)
        rw [System.upd_other _ _ hj]; exact ih
    | leaf j t ch =>
      by_cases hj : i = j
      · subst hj
        show SinkFull.Reach _ _ (upd s.leaf i _ i)
        rw [System.upd_same]
        exact .next ih (.step _ t ch)
      · show SinkFull.Reach _ _ (upd s.leaf j _ i)
        rw [System.upd_other _ _ hj]; exact ih

theorem sys_reach {S : Setup} {s : St} (h : Reach S s) : System.Conc.Reach s.sys := by
  induction h with
  | init debug ord ho => exact .init debug ord ho
  | @next s s' h he ih =>
    cases he with
    | system t sys' ht hf hm => exact .next ih hm.exec
    | _ => exact ih

/-! ### every message is on its way or accepted -/

theorem addressed_append (S : Setup) (t : Tid) (i : Nat) (a b : List Said) :
    addressed S t i (a ++ b) = addressed S t i a ++ addressed S t i b := by simp [addressed]

theorem addressed_other (S : Setup) (t : Tid) (i : Nat) (l : List Said) (h : ∀ x ∈ l, x.thread ≠ t) : addressed S t i l = [] := by
  unfold addressed
  have : l.filter (fun x => decide (x.thread = t)) = [] := by
    rw [List.filter_eq_nil_iff]
    intro x hx; simp [h x hx]
  rw [this]; rfl

theorem addressed_one (S : Setup) (t : Tid) (i : Nat) (x : Said) (h : x.thread = t) :
    addressed S t i [x] = List.replicate (deliveries (S.snk x.sink) S.level x.msg.level i) x.msg := by simp [addressed, h]

theorem plan_said (S : Setup) (t : Tid) (i : Nat) (name : Text) (c : System.Conc.SinkCall) (h : c.thread = t) :
    pend i (planOf S name c) = addressed S t i (saidOf S name c) := by
  cases c with
  | push u k r =>
    have : u = t := h
    subst this
    rw [planOf, saidOf, pend_deliveries]; exact (addressed_one S u i ⟨u, .log, k, S.msg name r⟩ rfl).symm
  | flush u k => rw [planOf, pend_flush]; rfl
  | null u => rfl

theorem plans_said (S : Setup) (t : Tid) (i : Nat) (name : Text) (l : List System.Conc.SinkCall) (h : ∀ c ∈ l, c.thread = t) :
    pend i (l.flatMap (planOf S name)) = addressed S t i (l.flatMap (saidOf S name)) := by
  induction l with
  | nil => rfl
  | cons c l ih =>
    rw [List.flatMap_cons, List.flatMap_cons, pend_append, addressed_append, plan_said S t i name c (h c (by simp)),
      ih (fun c hc => h c (by simp [hc]))]

theorem warns_said (S : Setup) (t : Tid) (i : Nat) (l : List System.Warning) :
    pend i (l.flatMap (warnPlan S)) = addressed S t i (l.map (warnSaid t)) := by
  induction l with
  | nil => rfl
  | cons w l ih =>
    have h1 : l.map (warnSaid t) = l.map (warnSaid t) := rfl
    rw [List.flatMap_cons, List.map_cons, pend_append, ih, warnPlan, pend_append, pend_deliveries, pend_flush]
    have : warnSaid t w :: l.map (warnSaid t) = [warnSaid t w] ++ l.map (warnSaid t) := rfl
    rw [this, addressed_append, addressed_one S t i (warnSaid t w) rfl, List.append_nil]
    rfl

theorem saidOf_thread (S : Setup) (t : Tid) (name : Text) (l : List System.Conc.SinkCall) (h : ∀ c ∈ l, c.thread = t) :
    ∀ x ∈ l.flatMap (saidOf S name), x.thread = t := by
  intro x hx
  rw [List.mem_flatMap] at hx
  obtain ⟨c, hc, hx⟩ := hx
  have := h c hc
  cases c with
  | push u k r => simp [saidOf] at hx; subst hx; exact this
  | flush u k => cases hx
  | null u => cases hx

/-- what thread `t` has brought to sink `i` so far: the accepted events and the one it is about to put -/
def brought (s : St) (t : Tid) (i : Nat) : List Event := acceptedFrom t (s.leaf i) ++ owed ((s.leaf i).ring.pc t) ((s.leaf i).pc t)

/-- all messages addressed to sink `i` by `t`: those brought, then those still to be pushed -/
def Track (S : Setup) (s : St) (t : Tid) (i : Nat) : Prop :=
  ∃ done, addressed S t i s.said = done ++ pend i (s.todo t) ∧ Matches (EventOf (S.leaf i)) (brought s t i) done

theorem new_said {S : Setup} {s : St} {t : Tid} {sys' : System.Conc.St} (hm : Moves t s.sys sys') :
    ∃ xs, (s.after S t sys').said = s.said ++ xs ∧ (∀ x ∈ xs, x.thread = t) ∧
      ∀ i, pend i ((s.after S t sys').todo t) = addressed S t i xs := by
  have ho : sys'.out.drop s.sys.out.length = newOut s.sys t := by rw [hm.out]; simp
  refine ⟨_, rfl, ?_, ?_⟩
  · rw [ho]
    intro x hx
    rw [List.mem_append] at hx
    rcases hx with hx | hx
    · exact saidOf_thread S t _ _ (newOut_thread s.sys t) x hx
    · rw [List.mem_map] at hx
      obtain ⟨w, _, rfl⟩ := hx
      rfl
  · intro i
    show pend i (upd s.todo t _ t) = _
    rw [System.upd_same, ho, pend_append, addressed_append, plans_said S t i _ _ (newOut_thread s.sys t), warns_said]

theorem direct_said (S : Setup) (t : Tid) (i k : Nat) (d : Direct) : pend i (d.plan S k) = addressed S t i (d.said t k) := by
  cases d with
  | push m => rw [Direct.plan, Direct.said, pend_deliveries]; exact (addressed_one S t i ⟨t, .user, k, m⟩ rfl).symm
  | flush => rw [Direct.plan, pend_flush]; rfl
  | asyncFlush => rw [Direct.plan, pend_async]; rfl
  | rotate => rw [Direct.plan, pend_rotate]; rfl

theorem direct_thread (t : Tid) (k : Nat) (d : Direct) : ∀ x ∈ d.said t k, x.thread = t := by
  intro x hx
  cases d with
  | push m => simp [Direct.said] at hx; subst hx; rfl
  | _ => cases hx

theorem brought_quiet {s : St} {t : Tid} {i : Nat} (h : quiet ((s.leaf i).pc t)) : brought s t i = acceptedFrom t (s.leaf i) := by
  unfold brought
  rcases h with h | h <;> (rw [h]; simp [owed])

theorem Track.more {S : Setup} {s s' : St} {t u : Tid} {i : Nat} (h : Track S s u i) {xs : List Said} (hl : s'.leaf = s.leaf)
    (hs : s'.said = s.said ++ xs) (ht : ∀ x ∈ xs, x.thread = t) (hf : s.todo t = []) (hp : pend i (s'.todo t) = addressed S t i xs)
    (ho : ∀ u, u ≠ t → s'.todo u = s.todo u) : Track S s' u i := by
  obtain ⟨done, h1, h2⟩ := h
  by_cases hu : u = t
  · subst hu
    refine ⟨done, ?_, ?_⟩
    · rw [hs, addressed_append, h1, hf, hp]; simp [pend]
    · unfold brought; rw [hl]; exact h2
  · refine ⟨done, ?_, ?_⟩
    · rw [hs, addressed_append, ho u hu, h1, addressed_other S u i xs (fun x hx => by rw [ht x hx]; exact fun h => hu h.symm)]
      simp
    · unfold brought; rw [hl]; exact h2

theorem track {S : Setup} (hS : S.Sound) {s : St} (h : Reach S s) (t : Tid) (i : Nat) : Track S s t i := by
  induction h generalizing t i with
  | init debug ord ho =>
    refine ⟨[], rfl, ?_⟩
    have : brought (init S debug ord) t i = [] := by
      unfold brought
      show acceptedFrom t (SinkFull.init _ _) ++ owed _ ((SinkFull.init _ _).pc t) = []
      simp only [SinkFull.init, acceptedFrom, Ring.init]
      (repeat' split) <;> rfl
    rw [this]; exact .nil
  | @next s s' h he ih =>
    cases he with
    | system v sys' hv hf hm =>
      obtain ⟨xs, h1, h2, h3⟩ := new_said (S := S) hm
      exact (ih t i).more (t := v) rfl h1 h2 hf.1 (h3 i) (fun u hu => System.upd_other _ _ hu)
    | direct v k d hv hf hi =>
      refine (ih t i).more (t := v) (xs := d.said v k) rfl rfl (direct_thread v k d) hf.1 ?_ (fun u hu => System.upd_other _ _ hu)
      show pend i (upd s.todo v _ v) = _
      rw [System.upd_same, direct_said S v]
    | destroy v j hv hf hi ho hc hn =>
      obtain ⟨done, h1, h2⟩ := ih t i
      refine ⟨done, h1, ?_⟩
      by_cases hj : i = j
      · subst hj
        have : brought { s with leaf := upd s.leaf i (SinkFull.setPc { s.leaf i with owner := some v } v .dStart) } t i = brought s t i := by
          unfold brought
          dsimp only
          rw [System.upd_same]
          by_cases hu : t = v
          · subst hu
            rw [hc t hv]
            simp [SinkFull.setPc, upd, owed, acceptedFrom]
          · simp [SinkFull.setPc, upd, hu, acceptedFrom]
        rw [this]; exact h2
      · have : brought { s with leaf := upd s.leaf j (SinkFull.setPc { s.leaf j with owner := some v } v .dStart) } t i = brought s t i := by
          unfold brought
          dsimp only
          rw [System.upd_other _ _ hj]
        rw [this]; exact h2
    | enter v j q rest call hv hd hf hi ho hs =>
      obtain ⟨done, h1, h2⟩ := ih t i
      by_cases hu : t = v
      · subst hu
        by_cases hj : i = j
        · subst hj
          have hb : brought { s with todo := upd s.todo t rest, leaf := upd s.leaf i (SinkFull.setPc (s.leaf i) t (SinkFull.startPC call)) } t i =
              brought s t i ++ owed ((s.leaf i).ring.pc t) (SinkFull.startPC call) := by
            unfold brought
            dsimp only
            rw [System.upd_same, hi]
            have : (SinkFull.setPc (s.leaf i) t (SinkFull.startPC call)).pc t = SinkFull.startPC call := by simp [SinkFull.setPc, upd]
            rw [this]
            have h0 : owed ((s.leaf i).ring.pc t) .idle = [] := rfl
            rw [h0, List.append_nil]
            rfl
          cases hs with
          | push m env =>
            refine ⟨done ++ [m], ?_, ?_⟩
            · show addressed S t i s.said = _ ++ pend i (upd s.todo t rest t)
              rw [h1, hd, System.upd_same]
              simp [pend]
            · rw [hb]
              exact h2.append (.cons ⟨env, rfl⟩ .nil)
          | _ =>
            refine ⟨done, ?_, ?_⟩
            · show addressed S t i s.said = _ ++ pend i (upd s.todo t rest t)
              rw [h1, hd, System.upd_same]
              simp [pend]
            · rw [hb]
              simpa [SinkFull.startPC, owed, SinkFull.owedBy] using h2
        · refine ⟨done, ?_, ?_⟩
          · show addressed S t i s.said = _ ++ pend i (upd s.todo t rest t)
            rw [h1, hd, System.upd_same]
            have hj' : ¬ j = i := fun h => hj h.symm
            cases q <;> simp [pend, hj']
          · have : brought { s with todo := upd s.todo t rest, leaf := upd s.leaf j (SinkFull.setPc (s.leaf j) t (SinkFull.startPC call)) } t i = brought s t i := by
              unfold brought
              dsimp only
              rw [System.upd_other _ _ hj]
            rw [this]; exact h2
      · refine ⟨done, ?_, ?_⟩
        · show addressed S t i s.said = _ ++ pend i (upd s.todo v rest t)
          rw [h1, System.upd_other _ _ hu]
        · have : brought { s with todo := upd s.todo v rest, leaf := upd s.leaf j (SinkFull.setPc (s.leaf j) v (SinkFull.startPC call)) } t i = brought s t i := by
            unfold brought
            dsimp only
            by_cases hj : i = j
            · subst hj
              rw [System.upd_same]
              simp [SinkFull.setPc, upd, hu, acceptedFrom]
            · rw [System.upd_other _ _ hj]
          rw [this]; exact h2
    | leaf j v ch =>
      obtain ⟨done, h1, h2⟩ := ih t i
      refine ⟨done, h1, ?_⟩
      have : brought { s with leaf := upd s.leaf j (SinkFull.step (S.leaf j).conc (s.leaf j) v ch) } t i = brought s t i := by
        unfold brought
        dsimp only
        by_cases hj : i = j
        · subst hj
          rw [System.upd_same]
          obtain ⟨put, taken, phase, held, apc, base, _, hR⟩ := SinkFull.refines (hS.room i) (leaf_reach h i)
          by_cases hu : t = v
          · subst hu
            exact SinkFull.step_owed hR t ch
          · obtain ⟨h3, h4, h5⟩ := SinkFull.step_other hR v t ch hu
            rw [h3, h4, h5]
        · rw [System.upd_other _ _ hj]
      rw [this]; exact h2

end Many
end Soralog
