import Verif.Proofs.OneThread
import Verif.Proofs.SinkStuck
/-! # Calls of any sinks, one after the other -/
namespace Soralog
namespace OneThread
open Sink (Leaf World Heap Snk)
open SinkConc (Cfg Ch PC Ret)
open Many (Req)

/-! ### parameters never change -/

theorem drain_cfg (q : List Event) : ∀ (c : Render.Cache) (x : Render.W) (l : Leaf), (Leaf.drainSyslog q c x l).cfg = l.cfg := by
  induction q with
  | nil => intro c x l; rfl
  | cons e q ih => intro c x l; unfold Leaf.drainSyslog; dsimp only; rw [ih]; split <;> rfl

theorem discard_cfg (q : List Event) : ∀ l : Leaf, (Leaf.discard q l).cfg = l.cfg := by
  induction q with
  | nil => intro l; rfl
  | cons e q ih => intro l; unfold Leaf.discard; rw [ih]

theorem flush_cfg (l : Leaf) : l.flush.cfg = l.cfg := by
  unfold Leaf.flush
  split
  · exact flushStream_cfg l
  · unfold Leaf.maybeRotate
    dsimp only
    split
    · split <;> exact flushStream_cfg l
    · exact flushStream_cfg l
  · exact drain_cfg _ _ _ _
  · exact discard_cfg _ _

theorem asyncFlush_cfg (l : Leaf) : l.asyncFlush.cfg = l.cfg := by
  unfold Leaf.asyncFlush
  split
  · exact flush_cfg l
  · split
    · rfl
    · exact flush_cfg l

theorem rotate_cfg (l : Leaf) : l.rotate.cfg = l.cfg := by
  unfold Leaf.rotate
  split
  · rfl
  · rfl
  · exact asyncFlush_cfg _
  · exact flush_cfg _

theorem afterStore_cfg (l : Leaf) : l.afterStore.cfg = l.cfg := by
  unfold Leaf.afterStore
  split
  · exact flush_cfg l
  · split
    · exact asyncFlush_cfg l
    · rfl

theorem pushLoop_cfg (m : Msg) : ∀ (n : Nat) (l l' : Leaf), Leaf.pushLoop m n l = some l' → l'.cfg = l.cfg := by
  intro n
  induction n with
  | zero => intro l l' h; cases h
  | succ n ih =>
    intro l l' h
    unfold Leaf.pushLoop at h
    split at h
    · cases h; rfl
    · split at h
      · cases h; rfl
      · rw [ih _ _ h, flush_cfg]

theorem pushed_cfg {m : Msg} {n : Nat} {l l' : Leaf} (h : (Leaf.pushLoop m n l).map Leaf.afterStore = some l') : l'.cfg = l.cfg := by
  obtain ⟨x, hx, rfl⟩ := Option.map_eq_some_iff.1 h
  rw [afterStore_cfg, pushLoop_cfg m n l x hx]

/-! ### lists of calls in the model with one thread -/

inductive Did : List (Nat × Req) → (Nat → Leaf) → (Nat → Leaf) → Prop where
  | nil (x : Nat → Leaf) : Did [] x x
  | push {rest : List (Nat × Req)} {x y : Nat → Leaf} (i : Nat) (m : Msg) (n : Nat) (l : Leaf) (h : (Leaf.pushLoop m n (x i)).map Leaf.afterStore = some l)
      (hr : Did rest (upd x i l) y) : Did ((i, .push m) :: rest) x y
  | flush {rest : List (Nat × Req)} {x y : Nat → Leaf} (i : Nat) (hr : Did rest (upd x i (x i).flush) y) : Did ((i, .flush) :: rest) x y
  | async {rest : List (Nat × Req)} {x y : Nat → Leaf} (i : Nat) (hr : Did rest (upd x i (x i).asyncFlush) y) : Did ((i, .asyncFlush) :: rest) x y
  | rotate {rest : List (Nat × Req)} {x y : Nat → Leaf} (i : Nat) (hr : Did rest (upd x i (x i).rotate) y) : Did ((i, .rotate) :: rest) x y

theorem Did.append {a b : List (Nat × Req)} {x y z : Nat → Leaf} (h : Did a x y) (hb : Did b y z) : Did (a ++ b) x z := by
  induction h with
  | nil => exact hb
  | push i m n l h _ ih => exact .push i m n l h (ih hb)
  | flush i _ ih => exact .flush i (ih hb)
  | async i _ ih => exact .async i (ih hb)
  | rotate i _ ih => exact .rotate i (ih hb)

theorem set_upd (h : Heap) (i : Nat) (l : Leaf) : (h.set i l).leaf = upd h.leaf i l := by
  funext n; unfold Heap.set upd; rfl

theorem did_async (s : Snk) (h : Heap) : Did (Many.asyncPlan s) h.leaf (s.asyncFlush h).leaf := by
  cases s with
  | leaf i => unfold Many.asyncPlan Snk.asyncFlush; rw [set_upd]; exact .async i (.nil _)
  | multi lv subs => exact .nil _

theorem did_asyncAll (ss : List Snk) : ∀ h : Heap, Did (ss.flatMap Many.asyncPlan) h.leaf (ss.foldl (fun h s => s.asyncFlush h) h).leaf := by
  induction ss with
  | nil => intro h; exact .nil _
  | cons s ss ih => intro h; rw [List.flatMap_cons]; exact (did_async s h).append (ih _)

mutual
theorem did_flush : (s : Snk) → (h : Heap) → Did (Many.flushPlan s) h.leaf (s.flush h).leaf
  | .leaf i, h => by unfold Many.flushPlan Snk.flush; rw [set_upd]; exact .flush i (.nil _)
  | .multi lv subs, h => by
    unfold Many.flushPlan Snk.flush
    exact (did_asyncAll subs h).append (did_flushAll subs _)
theorem did_flushAll : (ss : List Snk) → (h : Heap) → Did (Many.flushPlanAll ss) h.leaf (Snk.flushAll ss h).leaf
  | [], h => by unfold Many.flushPlanAll Snk.flushAll; exact .nil _
  | s :: ss, h => by
    unfold Many.flushPlanAll Snk.flushAll
    exact (did_flush s h).append (did_flushAll ss _)
end

mutual
theorem did_rotate : (s : Snk) → (h : Heap) → Did (Many.rotatePlan s) h.leaf (s.rotate h).leaf
  | .leaf i, h => by unfold Many.rotatePlan Snk.rotate; rw [set_upd]; exact .rotate i (.nil _)
  | .multi lv subs, h => by
    unfold Many.rotatePlan Snk.rotate
    exact did_rotateAll subs h
theorem did_rotateAll : (ss : List Snk) → (h : Heap) → Did (Many.rotatePlanAll ss) h.leaf (Snk.rotateAll ss h).leaf
  | [], h => by unfold Many.rotatePlanAll Snk.rotateAll; exact .nil _
  | s :: ss, h => by
    unfold Many.rotatePlanAll Snk.rotateAll
    exact (did_rotate s h).append (did_rotateAll ss _)
end

theorem Did.cfg {a : List (Nat × Req)} {x y : Nat → Leaf} (h : Did a x y) (i : Nat) : (y i).cfg = (x i).cfg := by
  have key : ∀ (x : Nat → Leaf) (n : Nat) (l : Leaf), l.cfg = (x n).cfg → (upd x n l i).cfg = (x i).cfg := by
    intro x n l e
    unfold upd; split
    · rename_i h; rw [h]; exact e
    · rfl
  induction h with
  | nil => rfl
  | push i m n l h _ ih => rw [ih, key _ _ _ (pushed_cfg h)]
  | flush i _ ih => rw [ih, key _ _ _ (flush_cfg _)]
  | async i _ ih => rw [ih, key _ _ _ (asyncFlush_cfg _)]
  | rotate i _ ih => rw [ih, key _ _ _ (rotate_cfg _)]

mutual
theorem did_push (S : Many.Setup) (fuel : Nat) (m : Msg) : (s : Snk) → (h h' : Heap) → (∀ i ∈ Spec.leaves s, (h.leaf i).cfg.level = (S.leaf i).level) →
    s.push fuel m h = some h' → Did (Many.pushPlan S m s) h.leaf h'.leaf
  | .leaf i, h, h', hl, hp => by
    unfold Snk.push Leaf.push at hp
    unfold Many.pushPlan
    rw [← hl i (by simp [Spec.leaves])]
    split
    · rename_i hr
      rw [if_pos hr] at hp
      have : h.set i (h.leaf i) = h' := Option.some.inj hp
      rw [← this, set_upd]
      have e : upd h.leaf i (h.leaf i) = h.leaf := by funext n; unfold upd; split <;> rename_i e <;> first | rw [e] | rfl
      rw [e]; exact .nil _
    · rename_i hr
      rw [if_neg hr] at hp
      obtain ⟨l, hx, rfl⟩ := Option.map_eq_some_iff.1 hp
      rw [set_upd]
      exact .push i m fuel l hx (.nil _)
  | .multi lv subs, h, h', hl, hp => by
    unfold Snk.push at hp
    unfold Many.pushPlan
    split
    · rename_i hr
      rw [if_pos hr] at hp
      cases hp; exact .nil _
    · rename_i hr
      rw [if_neg hr] at hp
      cases subs with
      | nil => cases hp; unfold Many.pushPlanAll; exact .nil _
      | cons s ss => exact did_pushAll S fuel m (s :: ss) h h' (fun i hi => hl i (by unfold Spec.leaves; exact hi)) hp
theorem did_pushAll (S : Many.Setup) (fuel : Nat) (m : Msg) : (ss : List Snk) → (h h' : Heap) → (∀ i ∈ Spec.leavesOfAll ss, (h.leaf i).cfg.level = (S.leaf i).level) →
    Snk.pushAll fuel m ss h = some h' → Did (Many.pushPlanAll S m ss) h.leaf h'.leaf
  | [], h, h', hl, hp => by unfold Snk.pushAll at hp; cases hp; unfold Many.pushPlanAll; exact .nil _
  | s :: ss, h, h', hl, hp => by
    unfold Snk.pushAll at hp
    unfold Many.pushPlanAll
    obtain ⟨h1, hx, hy⟩ := Option.bind_eq_some_iff.1 hp
    have d := did_push S fuel m s h h1 (fun i hi => hl i (by unfold Spec.leavesOfAll; exact List.mem_append_left _ hi)) hx
    exact d.append (did_pushAll S fuel m ss h1 h' (fun i hi => by rw [d.cfg i]; exact hl i (by unfold Spec.leavesOfAll; exact List.mem_append_right _ hi)) hy)
end

theorem did_direct (S : Many.Setup) (fuel : Nat) (n : Nat) (d : Many.Direct) {h h' : Heap} (hl : ∀ i ∈ Spec.leaves (S.snk n), (h.leaf i).cfg.level = (S.leaf i).level)
    (hp : Many.performed fuel (S.snk n) d h = some h') : Did (d.plan S n) h.leaf h'.leaf := by
  cases d with
  | push m => exact did_push S fuel m _ h h' hl hp
  | flush => cases hp; exact did_flush _ h
  | asyncFlush => cases hp; exact did_async _ h
  | rotate => cases hp; exact did_rotate _ h

theorem rotatePlan_leaves : (s : Snk) → ∀ q ∈ Many.rotatePlan s, q.1 ∈ Spec.leaves s := by
  intro s
  suffices hk : (∀ s : Snk, ∀ q ∈ Many.rotatePlan s, q.1 ∈ Spec.leaves s) from hk s
  intro s
  refine Snk.rec (motive_1 := fun s => ∀ q ∈ Many.rotatePlan s, q.1 ∈ Spec.leaves s)
    (motive_2 := fun ss => ∀ q ∈ Many.rotatePlanAll ss, q.1 ∈ Spec.leavesOfAll ss) ?_ ?_ ?_ ?_ s
  · intro i q hq
    simp only [Many.rotatePlan, List.mem_singleton] at hq; subst hq; simp [Spec.leaves]
  · intro lv subs ih q hq
    unfold Many.rotatePlan at hq; unfold Spec.leaves; exact ih q hq
  · intro q hq; unfold Many.rotatePlanAll at hq; cases hq
  · intro s ss h1 h2 q hq
    unfold Many.rotatePlanAll at hq; unfold Spec.leavesOfAll
    rcases List.mem_append.1 hq with h | h
    · exact List.mem_append_left _ (h1 q h)
    · exact List.mem_append_right _ (h2 q h)

theorem plan_leaves (S : Many.Setup) (n : Nat) (d : Many.Direct) : ∀ q ∈ d.plan S n, q.1 ∈ Spec.leaves (S.snk n) := by
  cases d with
  | push m => exact Many.Lock.pushPlan_leaves S m _
  | flush => exact Many.Lock.flushPlan_leaves _
  | asyncFlush => exact Many.Lock.asyncPlan_leaves _
  | rotate => exact rotatePlan_leaves _

/-! ### the lone thread -/

variable {S : Many.Setup} {cf : Nat → Sink.Cfg} {w : Nat → World} {o : Nat → Bool}

/-- what is known while thread `t` alone executes calls of sinks -/
def MHere (cf : Nat → Sink.Cfg) (w : Nat → World) (t : Tid) (fin : Nat → Leaf) (s : Many.St) (k j : Nat → Nat) : Prop :=
  ∃ x, Did (s.todo t) x fin ∧ (∀ q ∈ s.todo t, Many.Usual (cf q.1)) ∧ ∀ i,
    (Many.Usual (cf i) → FHere (cf i) (w i) (x i) t (s.leaf i) (k i) (j i)) ∧
    (¬ Many.Usual (cf i) → Resting ((s.leaf i).pc t) ∧ Same (cf i) (w i) (x i) (s.leaf i).view (k i) (j i))

theorem upd_at {α : Type} (f : Nat → α) (i : Nat) (a : α) : upd f i a i = a := by unfold upd; rw [if_pos rfl]
theorem upd_not {α : Type} (f : Nat → α) {i n : Nat} (a : α) (h : n ≠ i) : upd f i a n = f n := by unfold upd; rw [if_neg h]

/-- a call is entered -/
theorem fhere_enter {cf : Sink.Cfg} {w : World} {l : Leaf} {f : SinkFull.St} {t : Tid} {k j : Nat} (ht : t ≠ SinkConc.workerTid)
    (h : FHere cf w l t f k j) (hi : f.pc t = .idle) (ho : f.owner = none) (fin : Leaf) (call : SinkConc.Call)
    (hc : ∀ (a : SinkConc.St), a.flag = false → Ok cf w l a.view k j → l.accepted = Spec.putsOf none f.ring.log →
      Here cf w fin (SinkConc.firstPC call) a.view a.flag a.run k j) :
    FHere cf w fin t (SinkFull.setPc f t (SinkFull.startPC call)) k j := by
  obtain ⟨b, a, hR, hr, hh⟩ := h
  have hai := SinkFull.rel_idle hR hi
  have hlog := (SinkFull.rel_log hR).1
  rw [hai] at hh
  have hao : a.owner = none := by rw [hR.1]; exact ho
  refine ⟨b, _, Many.rel_call hR hi call, ?_, ?_⟩
  · have := SinkConc.Reach.next hr (SinkConc.Exec.call a t ht hai hao call)
    cases call <;> exact this
  · exact here_set (hc a hh.1 hh.2 (by rw [hh.2.same.accepted]; exact hlog))

theorem mhere_alone {t : Tid} (hS : ∀ i, Many.Usual (cf i) → S.leaf i = Many.leafOf (w i) (o i) (cf i)) {fin : Nat → Leaf} {s s' : Many.St}
    {k j k' j' : Nat → Nat} (h : Many.Alone S w t s k j s' k' j') (ht : t ≠ SinkConc.workerTid ∨ s.todo t = []) (hh : MHere cf w t fin s k j) : MHere cf w t fin s' k' j' := by
  have hconf : ∀ i, Many.Usual (cf i) → (S.leaf i).conc = conf (cf i) (w i) := fun i hi => by rw [hS i hi]; rfl
  induction h with
  | refl => exact hh
  | @enter s s' k j k' j' i q rest hd hq hi ho _ ih =>
    have ht : t ≠ SinkConc.workerTid := ht.resolve_right (by rw [hd]; simp)
    refine ih (.inl ht) ?_
    obtain ⟨x, hx, hu, hl⟩ := hh
    rw [hd] at hx hu
    have hui : Many.Usual (cf i) := hu _ List.mem_cons_self
    have hfi := (hl i).1 hui
    -- one call
    have one : ∀ (y : Leaf), Did rest (upd x i y) fin → FHere (cf i) (w i) y t
        (SinkFull.setPc (s.leaf i) t (SinkFull.startPC (Many.callNow (w i) (S.leaf i) (s.leaf i) q))) (k i) (j i) →
        MHere cf w t fin { s with todo := upd s.todo t rest, leaf := upd s.leaf i (SinkFull.setPc (s.leaf i) t (SinkFull.startPC (Many.callNow (w i) (S.leaf i) (s.leaf i) q))) } k j := by
      intro y hy hfy
      refine ⟨upd x i y, ?_, ?_, fun n => ?_⟩
      · show Did (upd s.todo t rest t) _ _
        rw [upd_at]; exact hy
      · show ∀ q ∈ upd s.todo t rest t, _
        rw [upd_at]; exact fun q hq => hu q (List.mem_cons_of_mem _ hq)
      · by_cases e : n = i
        · subst e
          refine ⟨fun _ => ?_, fun hx => absurd hui hx⟩
          show FHere _ _ _ _ (upd s.leaf n _ n) _ _
          rw [upd_at, upd_at]; exact hfy
        · show (_ → FHere _ _ _ _ (upd s.leaf i _ n) _ _) ∧ (_ → Resting ((upd s.leaf i _ n).pc t) ∧ Same _ _ _ (upd s.leaf i _ n).view _ _)
          rw [upd_not _ _ e, upd_not _ _ e]; exact hl n
    cases hx with
    | push _ m n l hp hr =>
      refine one l hr (fhere_enter ht hfi hi ho l _ fun a hf hok hacc => ?_)
      refine ⟨hf, x i, hok, m, n, ?_, hp⟩
      rw [hacc, hS i hui]; rfl
    | flush _ hr => exact one _ hr (fhere_enter ht hfi hi ho _ _ fun a hf hok _ => ⟨hf, x i, hok, rfl⟩)
    | async _ hr => exact one _ hr (fhere_enter ht hfi hi ho _ _ fun a hf hok _ => ⟨hf, x i, hok, rfl⟩)
    | rotate _ hr => exact one _ hr (fhere_enter ht hfi hi ho _ _ fun a hf hok _ => ⟨hf, x i, hok, rfl⟩)
  | @leaf s s' k j k' j' i ch ki ji ha _ ih =>
    refine ih ht ?_
    obtain ⟨x, hx, hu, hl⟩ := hh
    refine ⟨x, hx, hu, fun n => ?_⟩
    show (_ → FHere _ _ _ _ (upd s.leaf i _ n) _ _) ∧ (_ → Resting ((upd s.leaf i _ n).pc t) ∧ Same _ _ _ (upd s.leaf i _ n).view _ _)
    by_cases e : n = i
    · subst e
      rw [upd_at, upd_at, upd_at]
      refine ⟨fun hun => ?_, fun hun => ?_⟩
      · rw [hconf n hun] at ha ⊢
        exact fhere_step hun.1 hun.2.1 hun.2.2 ((hl n).1 hun) ha
      obtain ⟨hid, hsame⟩ := (hl n).2 hun
      have hst : SinkFull.step (S.leaf n).conc (s.leaf n) t ch = s.leaf n ∧ ki = k n ∧ ji = j n := by
        rcases hid with e | e | e <;> rw [e] at ha
        · obtain ⟨rfl, rfl⟩ := ha; exact ⟨by unfold SinkFull.step; simp only [e], rfl, rfl⟩
        · obtain ⟨hto, rfl, rfl⟩ := ha; exact ⟨by unfold SinkFull.step; simp [e, hto], rfl, rfl⟩
        · obtain ⟨rfl, rfl⟩ := ha; exact ⟨by unfold SinkFull.step; simp only [e], rfl, rfl⟩
      rw [hst.1, hst.2.1, hst.2.2]
      exact ⟨hid, hsame⟩
    · rw [upd_not _ _ e, upd_not _ _ e, upd_not _ _ e]; exact hl n

/-- other threads are where they were -/
theorem alone_others {t : Tid} {s s' : Many.St} {k j k' j' : Nat → Nat} (h : Many.Alone S w t s k j s' k' j') (i : Nat) {u : Tid} (hu : u ≠ t) :
    (s'.leaf i).pc u = (s.leaf i).pc u := by
  induction h with
  | refl => rfl
  | @enter s s' k j k' j' n q rest hd hq hi ho _ ih =>
    rw [ih]
    show (upd s.leaf n _ i).pc u = _
    by_cases e : i = n
    · subst e; rw [upd_at]; show upd _ _ _ u = _; rw [upd_not _ _ hu]
    · rw [upd_not _ _ e]
  | @leaf s s' k j k' j' n ch ki ji ha _ ih =>
    rw [ih]
    show (upd s.leaf n _ i).pc u = _
    by_cases e : i = n
    · subst e; rw [upd_at]; exact SinkFull.step_pc_other _ _ _ hu
    · rw [upd_not _ _ e]

theorem alone_reach {t : Tid} {s s' : Many.St}
    {k j k' j' : Nat → Nat} (h : Many.Alone S w t s k j s' k' j') (ht : t ≠ SinkConc.workerTid ∨ s.todo t = []) (hr : Many.Reach S s) : Many.Reach S s' := by
  induction h with
  | refl => exact hr
  | @enter s s' k j k' j' n q rest hd hq hi ho _ ih =>
    have ht : t ≠ SinkConc.workerTid := ht.resolve_right (by rw [hd]; simp)
    refine ih (.inl ht) (.next hr (.enter s t n q rest _ ht hd hq hi ho ?_))
    cases q with
    | push m => exact .push m _
    | flush => exact .flush
    | asyncFlush => exact .asyncFlush
    | rotate => exact .rotate
  | @leaf s s' k j k' j' n ch ki ji ha _ ih => exact ih ht (.next hr (.leaf s n t ch))

theorem worker_todo {s : Many.St} (h : Many.Reach S s) : s.todo SinkConc.workerTid = [] := by
  induction h with
  | init debug ord ho => rfl
  | @next s s' hr he ih =>
    have key : ∀ (t : Tid) (l : List (Nat × Req)), t ≠ SinkConc.workerTid → upd s.todo t l SinkConc.workerTid = [] := fun t l ht => by
      rw [upd_not _ _ (Ne.symm ht)]; exact ih
    cases he with
    | system t sys' ht hf hm => exact key t _ ht
    | direct t k d ht hf hi => exact key t _ ht
    | destroy t i ht hf hi ho hc hn => exact ih
    | enter t i q rest call ht hd hf hi ho hs => exact key t _ ht
    | leaf i t ch => exact ih

/-- when the thread is done -/
theorem mhere_end {t : Tid} {fin : Nat → Leaf} {s : Many.St} {k j : Nat → Nat} (h : MHere cf w t fin s k j) (ht : s.todo t = [])
    (hq : ∀ i, Resting ((s.leaf i).pc t) ∨ (s.leaf i).pc t = .dead) :
    (∀ i, Same (cf i) (w i) (fin i) (s.leaf i).view (k i) (j i)) ∧ ∀ i, Resting ((s.leaf i).pc t) := by
  obtain ⟨x, hx, _, hl⟩ := h
  rw [ht] at hx
  cases hx
  have hid : ∀ i, Resting ((s.leaf i).pc t) := by
    intro i
    by_cases hui : Many.Usual (cf i)
    · rcases hq i with e | e
      · exact e
      · exact absurd e (fhere_dead ((hl i).1 hui))
    · exact ((hl i).2 hui).1
  refine ⟨fun i => ?_, hid⟩
  by_cases hui : Many.Usual (cf i)
  · exact fhere_idle ((hl i).1 hui) (hid i)
  · exact ((hl i).2 hui).2

theorem free_ends {s : Many.St} {t : Tid} (h : Many.Free s t) (i : Nat) : Resting ((s.leaf i).pc t) ∨ (s.leaf i).pc t = .dead := by
  rcases h.2 i with e | e
  · exact .inl (.inl e)
  · exact .inr e

theorem lone_agree (hS : ∀ i, Many.Usual (cf i) → S.leaf i = Many.leafOf (w i) (o i) (cf i)) {s s' : Many.St} (hr : Many.Reach S s) {t : Tid} (ht : t ≠ SinkConc.workerTid)
    {n : Nat} {d : Many.Direct} (hu : ∀ i ∈ Spec.leaves (S.snk n), Many.Usual (cf i))
    (hst : ∀ i u, Resting ((s.leaf i).pc u)) {k j k' j' : Nat → Nat} {h h' : Heap}
    (ha : Many.Agree cf w h s k j) {fuel : Nat} (hp : Many.performed fuel (S.snk n) d h = some h')
    (hal : Many.Alone S w t { s with todo := upd s.todo t (d.plan S n), said := s.said ++ d.said t n } k j s' k' j') (he : Many.Free s' t) :
    Many.Agree cf w h' s' k' j' ∧ ∀ i, Resting ((s'.leaf i).pc t) := by
  have hdid := did_direct S fuel n d (h := h) (fun i hi => by rw [(ha i).cfg, hS i (hu i hi)]; rfl) hp
  have h0 : MHere cf w t h'.leaf { s with todo := upd s.todo t (d.plan S n), said := s.said ++ d.said t n } k j := by
    refine ⟨h.leaf, ?_, ?_, fun i => ⟨fun hui => ?_, fun _ => ⟨hst i t, ha i⟩⟩⟩
    · show Did (upd s.todo t _ t) _ _; rw [upd_at]; exact hdid
    · show ∀ q ∈ upd s.todo t _ t, _; rw [upd_at]; exact fun q hq => hu _ (plan_leaves S n d q hq)
    · have := Many.leaf_reach hr i
      rw [hS i hui] at this
      exact fhere_of hui.2.2 this (hst i) (ha i)
  exact mhere_end (mhere_alone hS hal (.inl ht) h0) he.1 (free_ends he)

/-- a pass of a worker -/
theorem pass_agree (hS : ∀ i, Many.Usual (cf i) → S.leaf i = Many.leafOf (w i) (o i) (cf i)) {s s' : Many.St} (hr : Many.Reach S s) {i : Nat}
    (hu : Many.Usual (cf i)) (hst : ∀ i u, Resting ((s.leaf i).pc u)) {k j k' j' : Nat → Nat} {h : Heap} (ha : Many.Agree cf w h s k j)
    (hp : (s.leaf i).pc SinkConc.workerTid = .wWait) {ch : Ch} (hto : ch.timeout = true)
    (hal : Many.Alone S w SinkConc.workerTid { s with leaf := upd s.leaf i (SinkFull.step (S.leaf i).conc (s.leaf i) SinkConc.workerTid ch) } k j s' k' j')
    (he : ∀ n, (s'.leaf n).pc SinkConc.workerTid = .wWait ∨ (s'.leaf n).pc SinkConc.workerTid = .wExit) :
    Many.Agree cf w ((Snk.leaf i).flush h) s' k' j' := by
  have hf : ∀ n, Many.Usual (cf n) → FHere (cf n) (w n) (h.leaf n) SinkConc.workerTid (s.leaf n) (k n) (j n) := fun n hun => by
    have := Many.leaf_reach hr n
    rw [hS n hun] at this
    exact fhere_of hun.2.2 this (hst n) (ha n)
  have htodo := worker_todo hr
  have hleaf : ((Snk.leaf i).flush h).leaf = upd h.leaf i (h.leaf i).flush := by unfold Snk.flush; exact set_upd _ _ _
  have h0 : MHere cf w SinkConc.workerTid ((Snk.leaf i).flush h).leaf
      { s with leaf := upd s.leaf i (SinkFull.step (S.leaf i).conc (s.leaf i) SinkConc.workerTid ch) } k j := by
    rw [hleaf]
    refine ⟨upd h.leaf i (h.leaf i).flush, ?_, ?_, fun n => ?_⟩
    · show Did (s.todo _) _ _; rw [htodo]; exact .nil _
    · show ∀ q ∈ s.todo _, _; rw [htodo]; exact fun q hq => (by cases hq)
    · show (_ → FHere _ _ _ _ (upd s.leaf i _ n) _ _) ∧ (_ → Resting ((upd s.leaf i _ n).pc _) ∧ Same _ _ _ (upd s.leaf i _ n).view _ _)
      by_cases e : n = i
      · subst e
        rw [upd_at, upd_at]
        refine ⟨fun _ => ?_, fun hx => absurd hu hx⟩
        rw [show (S.leaf n).conc = conf (cf n) (w n) by rw [hS n hu]; rfl]
        exact fhere_wake (hf n hu) hp hto
      · rw [upd_not _ _ e, upd_not _ _ e]
        exact ⟨hf n, fun _ => ⟨hst n _, ha n⟩⟩
  have hend := mhere_alone hS hal (.inr htodo) h0
  have htodo' : s'.todo SinkConc.workerTid = [] := worker_todo (alone_reach hal (.inr htodo) (.next hr (.leaf s i _ ch)))
  exact (mhere_end hend htodo' (fun n => .inl (.inr (he n)))).1

/-- everybody is at rest -/
theorem oneByOne_agree (hS : ∀ i, Many.Usual (cf i) → S.leaf i = Many.leafOf (w i) (o i) (cf i)) {s s' : Many.St} {k j k' j' : Nat → Nat} {cs : List Many.Event1}
    (h1 : Many.OneByOne S w s k j cs s' k' j') (hr : Many.Reach S s)
    (hrest : ∀ i u, (s.leaf i).pc u = .idle ∨ (s.leaf i).pc u = .wWait ∨ (s.leaf i).pc u = .wExit)
    (hu : ∀ c ∈ cs, ∀ i ∈ c.sinks S.snk, Many.Usual (cf i)) {h h' : Heap} (ha : Many.Agree cf w h s k j) {fuel : Nat}
    (hp : Many.performedAll fuel S.snk cs h = some h') : Many.Agree cf w h' s' k' j' := by
  induction h1 generalizing h with
  | nil => cases hp; exact ha
  | @call s s1 s' k j k1 j1 k' j' rest t n d ht hf hi hal hfr _ ih =>
    obtain ⟨h2, hx, hy⟩ := Option.bind_eq_some_iff.1 (show (Many.performed fuel (S.snk n) d h).bind (Many.performedAll fuel S.snk rest) = some h' from hp)
    obtain ⟨hag, hid⟩ := lone_agree hS hr ht (hu _ List.mem_cons_self) hrest ha hx hal hfr
    refine ih (alone_reach hal (.inl ht) (.next hr (.direct s t n d ht hf hi))) (fun i u => ?_) (fun c hc => hu c (List.mem_cons_of_mem _ hc)) hag hy
    by_cases e : u = t
    · subst e; exact hid i
    · rw [alone_others hal i e]; exact hrest i u
  | @pass s s1 s' k j k1 j1 k' j' rest i ch hpc hto hal hfr _ ih =>
    have hy : Many.performedAll fuel S.snk rest ((Snk.leaf i).flush h) = some h' := hp
    have hag := pass_agree hS hr (hu _ List.mem_cons_self i (List.mem_singleton.2 rfl)) hrest ha hpc hto hal hfr
    refine ih (alone_reach hal (.inr (show s.todo SinkConc.workerTid = [] from worker_todo hr)) (.next hr (.leaf s i _ ch))) (fun n u => ?_) (fun c hc => hu c (List.mem_cons_of_mem _ hc)) hag hy
    by_cases e : u = SinkConc.workerTid
    · subst e; exact .inr (hfr n)
    · rw [alone_others hal n e]
      show (upd s.leaf i _ n).pc u = _ ∨ (upd s.leaf i _ n).pc u = _ ∨ (upd s.leaf i _ n).pc u = _
      by_cases e' : n = i
      · subst e'; rw [upd_at, SinkFull.step_pc_other _ _ _ e]; exact hrest n u
      · rw [upd_not _ _ e']; exact hrest n u

theorem same_new (cf : Sink.Cfg) (w : World) (o : Bool) (c : Cfg) (b : Bool) (hb : b = match cf.kind with | .file => o | _ => true) :
    Same cf w (Leaf.new cf w o) (SinkFull.init c b).view 0 0 := by
  refine ⟨rfl, rfl, rfl, rfl, rfl, rfl, rfl, hb.symm, fun _ => rfl, fun _ x hx => ?_, fun _ => rfl, rfl, rfl⟩
  cases hx

end OneThread
end Soralog
