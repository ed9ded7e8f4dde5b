import Verif.Proofs.Sink
/-!
# Multisinks and loggers: reduction to sequences of calls on the queue-owning sinks
-/
namespace Soralog
namespace Sink
open Spec

/-- Calls on queue-owning sinks, executed in order. -/
def applyAll (cs : List (Nat × (Leaf → Leaf))) (h : Heap) : Heap :=
  cs.foldl (fun h c => h.set c.1 (c.2 (h.leaf c.1))) h

theorem applyAll_append (a b : List (Nat × (Leaf → Leaf))) (h : Heap) :
    applyAll (a ++ b) h = applyAll b (applyAll a h) := List.foldl_append

theorem applyAll_cons (c : Nat × (Leaf → Leaf)) (cs : List (Nat × (Leaf → Leaf))) (h : Heap) :
    applyAll (c :: cs) h = applyAll cs (h.set c.1 (c.2 (h.leaf c.1))) := rfl

/-- calls on one sink -/
def onLeaf (cs : List (Nat × (Leaf → Leaf))) (i : Nat) (l : Leaf) : Leaf :=
  cs.foldl (fun l c => if c.1 = i then c.2 l else l) l

theorem applyAll_leaf (cs : List (Nat × (Leaf → Leaf))) (h : Heap) (i : Nat) :
    (applyAll cs h).leaf i = onLeaf cs i (h.leaf i) := by
  induction cs generalizing h with
  | nil => rfl
  | cons c cs ih =>
    rw [applyAll_cons, ih]
    show onLeaf cs i (if i = c.1 then _ else _) = onLeaf cs i (if c.1 = i then _ else _)
    by_cases hc : c.1 = i
    · subst hc; simp
    · rw [if_neg (fun x => hc x.symm), if_neg hc]

theorem applyAll_ub (cs : List (Nat × (Leaf → Leaf))) (h : Heap) : (applyAll cs h).ub = h.ub := by
  induction cs generalizing h with
  | nil => rfl
  | cons c cs ih => rw [applyAll_cons, ih]; rfl

/-- all sinks are in order -/
structure Heap.Ok (h : Heap) : Prop where
  valid : ∀ i, (h.leaf i).cfg.Valid
  ok : ∀ i, ∃ o, (h.leaf i).Ok o

/-- A push on one sink, as a total function. -/
def pushLeaf (m : Msg) (l : Leaf) : Leaf := if Admits l.cfg.level m.level then l.pushed m else l

theorem pushLeaf_eq (n : Nat) (m : Msg) {o : Bool} {l : Leaf} (hv : l.cfg.Valid) (h : l.Ok o) :
    l.push (n + 2) m = some (pushLeaf m l) := by
  unfold pushLeaf
  split
  · rename_i ha; exact push_admitted n hv.1 h.cap ha
  · rename_i ha; exact push_rejected _ ha

theorem pushLeaf_ok (m : Msg) {o : Bool} {l : Leaf} (hv : l.cfg.Valid) (h : l.Ok o) : (pushLeaf m l).Ok o := by
  unfold pushLeaf
  split
  · rename_i ha
    refine pushed_ok h m hv.1 ?_
    intro hk; rw [hv.2 hk] at ha; exact not_admits_off _ ha
  · exact h

theorem pushLeaf_same (m : Msg) (l : Leaf) : l.Same (pushLeaf m l) := by
  unfold pushLeaf
  split
  · exact pushed_same l m
  · exact Leaf.Same.refl l

/-- a call that keeps a sink in order -/
def Good (f : Leaf → Leaf) : Prop := ∀ (o : Bool) (l : Leaf), l.cfg.Valid → l.Ok o → (f l).Ok o ∧ l.Same (f l)

theorem good_push (m : Msg) : Good (pushLeaf m) := fun _ l hv h => ⟨pushLeaf_ok m hv h, pushLeaf_same m l⟩
theorem good_flush : Good Leaf.flush := fun _ l _ h => ⟨flush_ok h, flush_same l⟩
theorem good_async : Good Leaf.asyncFlush := fun _ l _ h => ⟨asyncFlush_ok h, asyncFlush_same l⟩
theorem good_rotate : Good Leaf.rotate := fun _ l _ h => ⟨rotate_ok h, rotate_same l⟩

theorem onLeaf_good (cs : List (Nat × (Leaf → Leaf))) (hg : ∀ c ∈ cs, Good c.2) (i : Nat) {o : Bool} {l : Leaf}
    (hv : l.cfg.Valid) (h : l.Ok o) : (onLeaf cs i l).Ok o ∧ l.Same (onLeaf cs i l) := by
  induction cs generalizing l with
  | nil => exact ⟨h, Leaf.Same.refl l⟩
  | cons c cs ih =>
    have key : (if c.1 = i then c.2 l else l).Ok o ∧ l.Same (if c.1 = i then c.2 l else l) := by
      split
      · exact hg c (List.mem_cons_self ..) o l hv h
      · exact ⟨h, Leaf.Same.refl l⟩
    have := ih (fun c hc => hg c (List.mem_cons_of_mem _ hc)) (by rw [key.2.cfg]; exact hv) key.1
    exact ⟨this.1, key.2.trans this.2⟩

theorem applyAll_ok (cs : List (Nat × (Leaf → Leaf))) (hg : ∀ c ∈ cs, Good c.2) {h : Heap} (hh : h.Ok) :
    (applyAll cs h).Ok := by
  constructor
  · intro i
    obtain ⟨o, ho⟩ := hh.ok i
    rw [applyAll_leaf, (onLeaf_good cs hg i (hh.valid i) ho).2.cfg]
    exact hh.valid i
  · intro i
    obtain ⟨o, ho⟩ := hh.ok i
    refine ⟨o, ?_⟩
    rw [applyAll_leaf]
    exact (onLeaf_good cs hg i (hh.valid i) ho).1

/-! ### route -/

theorem route_leaf (i : Nat) (v : Level) : route (.leaf i) v = [i] := by
  simp [route, paths]

def routeAll (ss : List Snk) (v : Level) : List Nat :=
  ((pathsOfAll ss).filter fun p => decide (∀ lv ∈ p.1, Admits lv v)).map (·.2)

theorem route_multi (lv : Level) (ss : List Snk) (v : Level) :
    route (.multi lv ss) v = if Admits lv v then routeAll ss v else [] := by
  unfold route routeAll
  rw [paths, List.filter_map, List.map_map]
  split
  · rename_i h
    simp [Function.comp_def, h]
  · rename_i h
    simp [Function.comp_def, h]

theorem routeAll_cons (s : Snk) (ss : List Snk) (v : Level) : routeAll (s :: ss) v = route s v ++ routeAll ss v := by
  simp [routeAll, route, pathsOfAll]

/-- pushing = forwarding along the route -/
def pushCalls (m : Msg) (is : List Nat) : List (Nat × (Leaf → Leaf)) := is.map fun i => (i, pushLeaf m)

theorem pushCalls_good (m : Msg) (is : List Nat) : ∀ c ∈ pushCalls m is, Good c.2 := by
  intro c hc
  obtain ⟨i, _, rfl⟩ := List.mem_map.1 hc
  exact good_push m

mutual
theorem push_eq (n : Nat) (m : Msg) : (s : Snk) → (h : Heap) → Full s → h.Ok →
    Snk.push (n + 2) m s h = some (applyAll (pushCalls m (route s m.level)) h)
  | .leaf i, h, _, hh => by
    obtain ⟨o, ho⟩ := hh.ok i
    rw [Snk.push, pushLeaf_eq n m (hh.valid i) ho, route_leaf]
    rfl
  | .multi lv [], h, hf, _ => by
    rw [Full] at hf; exact absurd rfl hf.1
  | .multi lv (s :: ss), h, hf, hh => by
    rw [Full] at hf
    rw [Snk.push, route_multi]
    by_cases ha : Admits lv m.level
    · rw [(rejects_iff _ _).2 ha, if_pos ha]
      exact pushAll_eq n m (s :: ss) h hf.2 hh
    · rw [(rejects_true_iff _ _).2 ha, if_neg ha]
      rfl
theorem pushAll_eq (n : Nat) (m : Msg) : (ss : List Snk) → (h : Heap) → FullAll ss → h.Ok →
    Snk.pushAll (n + 2) m ss h = some (applyAll (pushCalls m (routeAll ss m.level)) h)
  | [], h, _, _ => rfl
  | s :: ss, h, hf, hh => by
    rw [FullAll] at hf
    rw [Snk.pushAll, push_eq n m s h hf.1 hh, routeAll_cons]
    have := applyAll_ok _ (pushCalls_good m (route s m.level)) hh
    show Snk.pushAll (n + 2) m ss _ = _
    rw [pushAll_eq n m ss _ hf.2 this]
    simp [pushCalls, applyAll_append]
end

/-! ### flush and rotate -/

def asyncCalls : List Snk → List (Nat × (Leaf → Leaf))
  | [] => []
  | .leaf i :: ss => (i, Leaf.asyncFlush) :: asyncCalls ss
  | .multi _ _ :: ss => asyncCalls ss

mutual
def flushCalls : Snk → List (Nat × (Leaf → Leaf))
  | .leaf i => [(i, Leaf.flush)]
  | .multi _ subs => asyncCalls subs ++ flushCallsAll subs
def flushCallsAll : List Snk → List (Nat × (Leaf → Leaf))
  | [] => []
  | s :: ss => flushCalls s ++ flushCallsAll ss
end

theorem async_eq (ss : List Snk) (h : Heap) : ss.foldl (fun h s => s.asyncFlush h) h = applyAll (asyncCalls ss) h := by
  induction ss generalizing h with
  | nil => rfl
  | cons s ss ih =>
    cases s with
    | leaf i => exact ih _
    | multi lv subs => exact ih _

mutual
theorem flush_eq : (s : Snk) → (h : Heap) → s.flush h = applyAll (flushCalls s) h
  | .leaf i, h => by rw [Snk.flush, flushCalls]; rfl
  | .multi lv subs, h => by
    rw [Snk.flush, flushCalls, applyAll_append, async_eq]
    exact flushAll_eq subs _
theorem flushAll_eq : (ss : List Snk) → (h : Heap) → Snk.flushAll ss h = applyAll (flushCallsAll ss) h
  | [], h => by rw [Snk.flushAll, flushCallsAll]; rfl
  | s :: ss, h => by
    rw [Snk.flushAll, flushCallsAll, applyAll_append, flush_eq s h]
    exact flushAll_eq ss _
end

theorem asyncCalls_good (ss : List Snk) : ∀ c ∈ asyncCalls ss, Good c.2 := by
  induction ss with
  | nil => intro c hc; cases hc
  | cons s ss ih =>
    cases s with
    | leaf i =>
      intro c hc
      rcases List.mem_cons.1 hc with rfl | hc
      · exact good_async
      · exact ih c hc
    | multi lv subs => exact ih

mutual
theorem flushCalls_good : (s : Snk) → ∀ c ∈ flushCalls s, Good c.2
  | .leaf i => by
    intro c hc
    rw [flushCalls] at hc
    rw [List.mem_singleton.1 hc]; exact good_flush
  | .multi lv subs => by
    intro c hc
    rw [flushCalls] at hc
    rcases List.mem_append.1 hc with hc | hc
    · exact asyncCalls_good subs c hc
    · exact flushCallsAll_good subs c hc
theorem flushCallsAll_good : (ss : List Snk) → ∀ c ∈ flushCallsAll ss, Good c.2
  | [] => by intro c hc; rw [flushCallsAll] at hc; cases hc
  | s :: ss => by
    intro c hc
    rw [flushCallsAll] at hc
    rcases List.mem_append.1 hc with hc | hc
    · exact flushCalls_good s c hc
    · exact flushCallsAll_good ss c hc
end

mutual
theorem rotate_eq : (s : Snk) → (h : Heap) → s.rotate h = applyAll ((leaves s).map fun i => (i, Leaf.rotate)) h
  | .leaf i, h => by rw [Snk.rotate, leaves]; rfl
  | .multi lv subs, h => by
    rw [Snk.rotate, leaves]
    exact rotateAll_eq subs _
theorem rotateAll_eq : (ss : List Snk) → (h : Heap) →
    Snk.rotateAll ss h = applyAll ((leavesOfAll ss).map fun i => (i, Leaf.rotate)) h
  | [], h => by rw [Snk.rotateAll, leavesOfAll]; rfl
  | s :: ss, h => by
    rw [Snk.rotateAll, leavesOfAll, List.map_append, applyAll_append, rotate_eq s h]
    exact rotateAll_eq ss _
end

/-! ### accepted events -/

theorem pushLeaf_accepted (m : Msg) (l : Leaf) : (pushLeaf m l).accepted =
    l.accepted ++ if Admits l.cfg.level m.level then [mkEvent (l.w.env l.accepted.length) l.cfg.ti l.cfg.maxLen m]
      else [] := by
  unfold pushLeaf
  split
  · exact pushed_accepted l m
  · simp

/-- pushes along a list of sinks -/
theorem onLeaf_push (m : Msg) (is : List Nat) (i : Nat) (l : Leaf) :
    (onLeaf (pushCalls m is) i l).accepted = l.accepted ++ eventsOf l.w.env l.cfg.ti l.cfg.maxLen l.accepted.length
      (List.replicate (if Admits l.cfg.level m.level then is.count i else 0) m) := by
  induction is generalizing l with
  | nil => simp [pushCalls, onLeaf, eventsOf]
  | cons j is ih =>
    show (onLeaf (pushCalls m is) i (if j = i then pushLeaf m l else l)).accepted = _
    rw [ih]
    by_cases hj : j = i
    · subst hj
      rw [if_pos rfl, (pushLeaf_same m l).cfg, (pushLeaf_same m l).w, pushLeaf_accepted]
      by_cases ha : Admits l.cfg.level m.level
      · simp only [if_pos ha, List.count_cons_self, List.replicate_succ, eventsOf, List.length_append,
          List.length_cons, List.length_nil, Nat.zero_add, List.append_assoc, List.cons_append, List.nil_append]
      · simp [if_neg ha]
    · rw [if_neg hj, List.count_cons_of_ne hj]

/-- calls other than pushes accept nothing -/
theorem onLeaf_other (cs : List (Nat × (Leaf → Leaf))) (hc : ∀ c ∈ cs, ∀ l, (c.2 l).accepted = l.accepted) (i : Nat)
    (l : Leaf) : (onLeaf cs i l).accepted = l.accepted := by
  induction cs generalizing l with
  | nil => rfl
  | cons c cs ih =>
    show (onLeaf cs i (if c.1 = i then c.2 l else l)).accepted = _
    rw [ih fun c h => hc c (List.mem_cons_of_mem _ h)]
    split
    · exact hc c (List.mem_cons_self ..) l
    · rfl

theorem asyncCalls_accepted (ss : List Snk) : ∀ c ∈ asyncCalls ss, ∀ l, (c.2 l).accepted = l.accepted := by
  induction ss with
  | nil => intro c hc; cases hc
  | cons s ss ih =>
    cases s with
    | leaf i =>
      intro c hc
      rcases List.mem_cons.1 hc with rfl | hc
      · exact asyncFlush_accepted
      · exact ih c hc
    | multi lv subs => exact ih

mutual
theorem flushCalls_accepted : (s : Snk) → ∀ c ∈ flushCalls s, ∀ l, (c.2 l).accepted = l.accepted
  | .leaf i => by
    intro c hc
    rw [flushCalls] at hc
    rw [List.mem_singleton.1 hc]; exact flush_accepted
  | .multi lv subs => by
    intro c hc
    rw [flushCalls] at hc
    rcases List.mem_append.1 hc with hc | hc
    · exact asyncCalls_accepted subs c hc
    · exact flushCallsAll_accepted subs c hc
theorem flushCallsAll_accepted : (ss : List Snk) → ∀ c ∈ flushCallsAll ss, ∀ l, (c.2 l).accepted = l.accepted
  | [] => by intro c hc; rw [flushCallsAll] at hc; cases hc
  | s :: ss => by
    intro c hc
    rw [flushCallsAll] at hc
    rcases List.mem_append.1 hc with hc | hc
    · exact flushCalls_accepted s c hc
    · exact flushCallsAll_accepted ss c hc
end

/-! ### queue lengths -/

theorem asyncFlush_queue_le (l : Leaf) : l.asyncFlush.queue.length ≤ l.queue.length := by
  have := flush_queue_sub l
  unfold Leaf.asyncFlush
  split
  · omega
  · split
    · exact Nat.le_refl _
    · omega

theorem pushLeaf_queue_le (m : Msg) (l : Leaf) : (pushLeaf m l).queue.length ≤ l.queue.length + 1 := by
  have hstore : ∀ l : Leaf, (l.store m).queue.length = l.queue.length + 1 := by intro l; simp [Leaf.store]
  have hafter : ∀ l : Leaf, l.afterStore.queue.length ≤ l.queue.length := by
    intro l
    unfold Leaf.afterStore
    have := flush_queue_sub l
    split
    · omega
    · split
      · exact asyncFlush_queue_le l
      · exact Nat.le_refl _
  unfold pushLeaf
  split
  · unfold Leaf.pushed
    refine Nat.le_trans (hafter _) ?_
    rw [hstore]
    split
    · exact Nat.le_refl _
    · have := flush_queue_sub l; omega
  · omega

theorem onLeaf_push_queue (m : Msg) (is : List Nat) (i : Nat) (l : Leaf) :
    (onLeaf (pushCalls m is) i l).queue.length ≤ l.queue.length + is.count i := by
  induction is generalizing l with
  | nil => simp [pushCalls, onLeaf]
  | cons j is ih =>
    show (onLeaf (pushCalls m is) i (if j = i then pushLeaf m l else l)).queue.length ≤ _
    refine Nat.le_trans (ih _) ?_
    by_cases hj : j = i
    · subst hj
      rw [if_pos rfl, List.count_cons_self]
      have := pushLeaf_queue_le m l
      omega
    · rw [if_neg hj, List.count_cons_of_ne hj]; exact Nat.le_refl _

theorem onLeaf_append (a b : List (Nat × (Leaf → Leaf))) (i : Nat) (l : Leaf) :
    onLeaf (a ++ b) i l = onLeaf b i (onLeaf a i l) := List.foldl_append

theorem onLeaf_async_queue (ss : List Snk) (i : Nat) (l : Leaf) :
    (onLeaf (asyncCalls ss) i l).queue.length ≤ l.queue.length := by
  induction ss generalizing l with
  | nil => exact Nat.le_refl _
  | cons s ss ih =>
    cases s with
    | leaf j =>
      show (onLeaf (asyncCalls ss) i (if j = i then l.asyncFlush else l)).queue.length ≤ _
      refine Nat.le_trans (ih _) ?_
      split
      · exact asyncFlush_queue_le l
      · exact Nat.le_refl _
    | multi lv subs => exact ih l

mutual
theorem onLeaf_flush_queue : (s : Snk) → (i : Nat) → (l : Leaf) →
    (onLeaf (flushCalls s) i l).queue.length ≤ l.queue.length - (leaves s).count i
  | .leaf j, i, l => by
    rw [flushCalls, leaves]
    show (if j = i then l.flush else l).queue.length ≤ _
    split
    · rename_i h; subst h; have := flush_queue_sub l; simpa using this
    · rename_i h; simp [h]
  | .multi lv subs, i, l => by
    rw [flushCalls, leaves, onLeaf_append]
    refine Nat.le_trans (onLeaf_flushAll_queue subs i _) ?_
    have := onLeaf_async_queue subs i l
    omega
theorem onLeaf_flushAll_queue : (ss : List Snk) → (i : Nat) → (l : Leaf) →
    (onLeaf (flushCallsAll ss) i l).queue.length ≤ l.queue.length - (leavesOfAll ss).count i
  | [], i, l => by rw [flushCallsAll, leavesOfAll]; exact Nat.le_refl _
  | s :: ss, i, l => by
    rw [flushCallsAll, leavesOfAll, onLeaf_append]
    refine Nat.le_trans (onLeaf_flushAll_queue ss i _) ?_
    have := onLeaf_flush_queue s i l
    rw [List.count_append]
    omega
end

mutual
theorem leaves_eq : (s : Snk) → leaves s = (paths s).map (·.2)
  | .leaf i => by rw [leaves, paths]; rfl
  | .multi lv subs => by
    rw [leaves, paths, leavesOfAll_eq subs, List.map_map]; rfl
theorem leavesOfAll_eq : (ss : List Snk) → leavesOfAll ss = (pathsOfAll ss).map (·.2)
  | [] => by rw [leavesOfAll, pathsOfAll]; rfl
  | s :: ss => by rw [leavesOfAll, pathsOfAll, List.map_append, leaves_eq s, leavesOfAll_eq ss]
end

theorem route_count_le (s : Snk) (v : Level) (i : Nat) : (route s v).count i ≤ (leaves s).count i := by
  rw [leaves_eq]
  unfold route
  exact List.Sublist.count_le _ ((List.filter_sublist).map _)

theorem deliveries_eq (s : Snk) (own : Nat → Level) (v : Level) (i : Nat) :
    deliveries s own v i = if Admits (own i) v then (route s v).count i else 0 := by
  unfold deliveries route
  rw [List.count, List.countP_map, List.countP_filter]
  split
  · rename_i h
    apply List.countP_congr
    intro p _
    simp [h]
  · rename_i h
    simp [h]

end Sink
end Soralog
