import Verif.Spec.LoneCall
import Verif.Proofs.Many
import Verif.Proofs.SinkFullDeliver
import Verif.Props.SinkFull
/-! # A log call that has a sink for itself -/
namespace Soralog
namespace Many
open Spec
open SinkConc (workerTid)
open SinkFull (Rel rel_step rel_simple_pc rel_refines rel_log)

/-- the calls of a plan that go to sink `k` -/
def onSink (k : Nat) (l : List (Nat × Req)) : List Req := (l.filter fun q => q.1 = k).map (·.2)

theorem onSink_append (k : Nat) (a b : List (Nat × Req)) : onSink k (a ++ b) = onSink k a ++ onSink k b := by simp [onSink]

theorem onSink_cons (k : Nat) (q : Req) (l : List (Nat × Req)) : onSink k ((k, q) :: l) = q :: onSink k l := by simp [onSink]

theorem onSink_other (k j : Nat) (h : j ≠ k) (q : Req) (l : List (Nat × Req)) : onSink k ((j, q) :: l) = onSink k l := by simp [onSink, h]

mutual
theorem onSink_push (S : Setup) (m : Msg) (k : Nat) : (s : Sink.Snk) → onSink k (pushPlan S m s) = (pend k (pushPlan S m s)).map .push
  | .leaf j => by
    rw [pushPlan]
    split
    · rfl
    · by_cases h : j = k <;> simp [onSink, pend, h]
  | .multi lv subs => by
    rw [pushPlan]
    split
    · rfl
    · exact onSink_pushAll S m k subs
theorem onSink_pushAll (S : Setup) (m : Msg) (k : Nat) : (ss : List Sink.Snk) →
    onSink k (pushPlanAll S m ss) = (pend k (pushPlanAll S m ss)).map .push
  | [] => rfl
  | s :: ss => by rw [pushPlanAll, onSink_append, pend_append, List.map_append, onSink_push S m k s, onSink_pushAll S m k ss]
end

/-- only `flush` and `async_flush` -/
def OnlyReq (l : List Req) : Prop := ∀ q ∈ l, q = .flush ∨ q = .asyncFlush

theorem OnlyReq.append {a b : List Req} (h1 : OnlyReq a) (h2 : OnlyReq b) : OnlyReq (a ++ b) := by
  intro q hq
  rcases List.mem_append.1 hq with h | h
  · exact h1 q h
  · exact h2 q h

theorem only_async (k : Nat) : (s : Sink.Snk) → OnlyReq (onSink k (asyncPlan s))
  | .leaf j => by
    intro q hq
    by_cases h : j = k
    · simp [asyncPlan, onSink, h] at hq; exact .inr hq
    · simp [asyncPlan, onSink, h] at hq
  | .multi _ _ => by intro q hq; simp [asyncPlan, onSink] at hq

theorem only_asyncs (k : Nat) (ss : List Sink.Snk) : OnlyReq (onSink k (ss.flatMap asyncPlan)) := by
  induction ss with
  | nil => intro q hq; simp [onSink] at hq
  | cons s ss ih => rw [List.flatMap_cons, onSink_append]; exact (only_async k s).append ih

mutual
theorem only_flush (k : Nat) : (s : Sink.Snk) → OnlyReq (onSink k (flushPlan s))
  | .leaf j => by
    intro q hq
    by_cases h : j = k
    · simp [flushPlan, onSink, h] at hq; exact .inl hq
    · simp [flushPlan, onSink, h] at hq
  | .multi _ subs => by rw [flushPlan, onSink_append]; exact (only_asyncs k subs).append (only_flushAll k subs)
theorem only_flushAll (k : Nat) : (ss : List Sink.Snk) → OnlyReq (onSink k (flushPlanAll ss))
  | [] => by intro q hq; simp [flushPlanAll, onSink] at hq
  | s :: ss => by rw [flushPlanAll, onSink_append]; exact (only_flush k s).append (only_flushAll k ss)
end

mutual
theorem flush_mem (k : Nat) : (s : Sink.Snk) → k ∈ leaves s → Req.flush ∈ onSink k (flushPlan s)
  | .leaf j, h => by
    have : k = j := by simpa [leaves] using h
    subst this; simp [flushPlan, onSink]
  | .multi _ subs, h => by
    rw [flushPlan, onSink_append]
    exact List.mem_append_right _ (flush_memAll k subs h)
theorem flush_memAll (k : Nat) : (ss : List Sink.Snk) → k ∈ leavesOfAll ss → Req.flush ∈ onSink k (flushPlanAll ss)
  | [], h => by cases h
  | s :: ss, h => by
    rw [flushPlanAll, onSink_append]
    rcases List.mem_append.1 (show k ∈ leaves s ++ leavesOfAll ss from h) with h | h
    · exact List.mem_append_left _ (flush_mem k s h)
    · exact List.mem_append_right _ (flush_memAll k ss h)
end

/-- a leaf that is not among the direct ones is flushed by a multisink below, which asks first -/
def AsksFirst (l : List Req) : Prop := ∃ r, l = .asyncFlush :: r ∧ Req.flush ∈ r

theorem asyncs_nil_or (k : Nat) (ss : List Sink.Snk) :
    (∃ r, onSink k (ss.flatMap asyncPlan) = .asyncFlush :: r) ∨ (onSink k (ss.flatMap asyncPlan) = [] ∧ Sink.Snk.leaf k ∉ ss) := by
  induction ss with
  | nil => exact .inr ⟨rfl, by simp⟩
  | cons s ss ih =>
    rw [List.flatMap_cons, onSink_append]
    cases s with
    | leaf j =>
      by_cases h : j = k
      · subst h; exact .inl ⟨_, by simp [asyncPlan, onSink]; rfl⟩
      · have e : onSink k (asyncPlan (.leaf j)) = [] := by simp [asyncPlan, onSink, h]
        rw [e]
        rcases ih with ih | ⟨h1, h2⟩
        · exact .inl ih
        · exact .inr ⟨h1, by
            intro hm
            rcases List.mem_cons.1 hm with hm | hm
            · exact h (by injection hm with hm; exact hm.symm)
            · exact h2 hm⟩
    | multi lv subs =>
      have e : onSink k (asyncPlan (.multi lv subs)) = [] := by simp [asyncPlan, onSink]
      rw [e]
      rcases ih with ih | ⟨h1, h2⟩
      · exact .inl ih
      · exact .inr ⟨h1, by
          intro hm
          rcases List.mem_cons.1 hm with hm | hm
          · cases hm
          · exact h2 hm⟩

mutual
theorem notin_flush (k : Nat) : (s : Sink.Snk) → k ∉ leaves s → onSink k (flushPlan s) = []
  | .leaf j, h => by
    have : j ≠ k := fun e => h (by simp [leaves, e])
    simp [flushPlan, onSink, this]
  | .multi lv subs, h => by
    rw [flushPlan, onSink_append, notin_flushAll k subs h]
    have : onSink k (subs.flatMap asyncPlan) = [] := notin_asyncs k subs h
    rw [this]; rfl
theorem notin_flushAll (k : Nat) : (ss : List Sink.Snk) → k ∉ leavesOfAll ss → onSink k (flushPlanAll ss) = []
  | [], _ => rfl
  | s :: ss, h => by
    have h' : k ∉ leaves s ++ leavesOfAll ss := h
    rw [flushPlanAll, onSink_append, notin_flush k s (fun e => h' (List.mem_append_left _ e)),
      notin_flushAll k ss (fun e => h' (List.mem_append_right _ e))]; rfl
theorem notin_asyncs (k : Nat) : (ss : List Sink.Snk) → k ∉ leavesOfAll ss → onSink k (ss.flatMap asyncPlan) = []
  | [], _ => rfl
  | s :: ss, h => by
    have h' : k ∉ leaves s ++ leavesOfAll ss := h
    rw [List.flatMap_cons, onSink_append, notin_asyncs k ss (fun e => h' (List.mem_append_right _ e))]
    cases s with
    | leaf j =>
      have : j ≠ k := fun e => h' (List.mem_append_left _ (by simp [leaves, e]))
      simp [asyncPlan, onSink, this]
    | multi _ _ => simp [asyncPlan, onSink]
end

mutual
theorem asks_multi (k : Nat) : (s : Sink.Snk) → k ∈ leaves s → s ≠ .leaf k → AsksFirst (onSink k (flushPlan s))
  | .leaf j, h, hn => absurd (by rw [show k = j by simpa [leaves] using h]) hn
  | .multi _ subs, h, _ => by
    rw [flushPlan, onSink_append]
    rcases asyncs_nil_or k subs with ⟨r, e⟩ | ⟨e, hn⟩
    · rw [e]; exact ⟨r ++ onSink k (flushPlanAll subs), rfl, List.mem_append_right _ (flush_memAll k subs h)⟩
    · rw [e]; exact asks_multiAll k subs h hn
theorem asks_multiAll (k : Nat) : (ss : List Sink.Snk) → k ∈ leavesOfAll ss → Sink.Snk.leaf k ∉ ss → AsksFirst (onSink k (flushPlanAll ss))
  | [], h, _ => by cases h
  | s :: ss, h, hn => by
    rw [flushPlanAll, onSink_append]
    by_cases hs : k ∈ leaves s
    · obtain ⟨r, e, hm⟩ := asks_multi k s hs (fun e => hn (by rw [e]; exact List.mem_cons_self))
      rw [e]; exact ⟨r ++ onSink k (flushPlanAll ss), rfl, List.mem_append_left _ hm⟩
    · rw [notin_flush k s hs]
      have h' : k ∈ leaves s ++ leavesOfAll ss := h
      exact asks_multiAll k ss ((List.mem_append.1 h').resolve_left hs) (fun e => hn (List.mem_cons_of_mem _ e))
end

mutual
theorem path_leaf (k : Nat) : (s : Sink.Snk) → ∀ p ∈ paths s, p.2 = k → k ∈ leaves s
  | .leaf j => by intro p hp e; simp [paths] at hp; rw [hp] at e; simp [leaves, ← e]
  | .multi lv subs => by
    intro p hp e
    simp only [paths, List.mem_map] at hp
    obtain ⟨p', hp', rfl⟩ := hp
    exact path_leafAll k subs p' hp' e
theorem path_leafAll (k : Nat) : (ss : List Sink.Snk) → ∀ p ∈ pathsOfAll ss, p.2 = k → k ∈ leavesOfAll ss
  | [] => by intro p hp; simp [pathsOfAll] at hp
  | s :: ss => by
    intro p hp e
    rw [pathsOfAll] at hp
    show k ∈ leaves s ++ leavesOfAll ss
    rcases List.mem_append.1 hp with hp | hp
    · exact List.mem_append_left _ (path_leaf k s p hp e)
    · exact List.mem_append_right _ (path_leafAll k ss p hp e)
end

theorem delivered_leaf {s : Sink.Snk} {own : Nat → Level} {v : Level} {k : Nat} (h : 0 < deliveries s own v k) : k ∈ leaves s := by
  unfold deliveries at h
  obtain ⟨p, hp, hc⟩ := List.countP_pos_iff.1 h
  exact path_leaf k s p hp (of_decide_eq_true hc).1

/-! ### the sink -/

section
variable (P : List Event) (Ev : Event → Prop)

/-- nothing queued, nothing new -/
def Before (a : SinkConc.St) : Prop := a.put = P ∧ a.taken = P.length
/-- the new event is queued, nothing else -/
def Queued (a : SinkConc.St) : Prop := (∃ e, Ev e ∧ a.put = P ++ [e]) ∧ a.taken = P.length
/-- the new event has been taken -/
def Taken (a : SinkConc.St) : Prop := (∃ e, Ev e ∧ a.put = P ++ [e]) ∧ a.taken = P.length + 1

/-- where the thread is in sink `k`, and what it still has to call there -/
def Lone (t : Tid) (m : Msg) (rem : List Req) (a : SinkConc.St) : Prop :=
  match a.pc t with
  | .idle => (Before P a ∧ ∃ r, rem = .push m :: r ∧ OnlyReq r ∧ AsksFirst r) ∨ (Queued P Ev a ∧ OnlyReq rem ∧ AsksFirst rem) ∨
      (Queued P Ev a ∧ a.needFlush = true ∧ OnlyReq rem ∧ Req.flush ∈ rem) ∨ (Taken P Ev a ∧ a.sbuf = [] ∧ OnlyReq rem)
  | .put e => Before P a ∧ Ev e ∧ OnlyReq rem ∧ AsksFirst rem
  | .count _ => Queued P Ev a ∧ OnlyReq rem ∧ AsksFirst rem
  | .release _ => Queued P Ev a ∧ OnlyReq rem ∧ AsksFirst rem
  | .decide => Queued P Ev a ∧ OnlyReq rem ∧ AsksFirst rem
  | .async => OnlyReq rem ∧ ((Queued P Ev a ∧ Req.flush ∈ rem) ∨ (Taken P Ev a ∧ a.sbuf = []))
  | .enter r => r = .done ∧ OnlyReq rem ∧ ((Queued P Ev a ∧ a.needFlush = true) ∨ (Taken P Ev a ∧ a.sbuf = []))
  | .get r => r = .done ∧ OnlyReq rem ∧ ((Queued P Ev a ∧ a.needFlush = true) ∨ (Taken P Ev a ∧ a.sbuf = []))
  | .uncount r _ => r = .done ∧ OnlyReq rem ∧ Taken P Ev a ∧ a.needFlush = true
  | .unref r _ => r = .done ∧ OnlyReq rem ∧ Taken P Ev a ∧ a.needFlush = true
  | .write r (some _) => r = .done ∧ OnlyReq rem ∧ Taken P Ev a ∧ a.needFlush = true
  | .casFlush r => r = .done ∧ OnlyReq rem ∧ Taken P Ev a ∧ a.needFlush = true
  | .sync r => r = .done ∧ OnlyReq rem ∧ Taken P Ev a
  | .write r none => r = .done ∧ OnlyReq rem ∧ Taken P Ev a ∧ a.sbuf = []
  | .casRotate r => r = .done ∧ OnlyReq rem ∧ Taken P Ev a ∧ a.sbuf = []
  | .reopen r => r = .done ∧ OnlyReq rem ∧ Taken P Ev a ∧ a.sbuf = []
  | .leave r => r = .done ∧ OnlyReq rem ∧ Taken P Ev a ∧ a.sbuf = []
  | _ => False
end

theorem AsksFirst.mem {l : List Req} (h : AsksFirst l) : Req.flush ∈ l := by
  obtain ⟨r, rfl, h⟩ := h; exact List.mem_cons_of_mem _ h

theorem lone_step {c : SinkConc.Cfg} (hcap : 0 < c.capacity) (hl : c.latency0 = false) (hk : c.isSyslog = false) {P : List Event} {Ev : Event → Prop}
    {t : Tid} {m : Msg} {rem : List Req} {a : SinkConc.St} (hr : SinkConc.Reach c true a) (ho : ∀ u, u ≠ t → (a.pc u).inBody = false)
    (h : Lone P Ev t m rem a) {ch : SinkConc.Ch} (hc : ch.casOk = true) : Lone P Ev t m rem (SinkConc.step c a t ch) := by
  have hx := SinkConc.excl_reach hr
  have hflag : (a.pc t).inBody = false → a.flag = false := by
    intro hb
    cases hf : a.flag with
    | false => rfl
    | true =>
      obtain ⟨u, hu⟩ := hx.free hf
      by_cases e : u = t
      · subst e; rw [hb] at hu; cases hu
      · rw [ho u e] at hu; cases hu
  have hheld : a.put.length = a.taken → a.queued = 0 := by intro e; unfold SinkConc.St.queued; omega
  unfold Lone at h
  cases hp : a.pc t <;> rw [hp] at h <;> (try dsimp only at h)
  case idle =>
    rw [show SinkConc.step c a t ch = a by unfold SinkConc.step; simp only [hp]]
    unfold Lone; rw [hp]; exact h
  case put e =>
    obtain ⟨⟨h1, h2⟩, h3, h4⟩ := h
    have hq : a.queued = 0 := hheld (by rw [h1, h2])
    unfold SinkConc.step; simp only [hp]
    rw [if_neg (by rw [hq]; omega)]
    split
    · unfold Lone; rw [hp]; exact ⟨⟨h1, h2⟩, h3, h4⟩
    · unfold Lone; simp only [SinkConc.setPc, upd, if_true]
      exact ⟨⟨⟨e, h3, by rw [h1]⟩, h2⟩, h4⟩
  case count n =>
    unfold SinkConc.step; simp only [hp]; unfold Lone; simp only [SinkConc.setPc, upd, if_true]; exact h
  case release n =>
    unfold SinkConc.step; simp only [hp]; unfold Lone; simp only [SinkConc.setPc, upd, if_true]; exact h
  case decide =>
    unfold SinkConc.step; simp only [hp]; rw [if_neg (by rw [hl]; simp)]
    split
    · unfold Lone; simp only [SinkConc.setPc, upd, if_true]; exact ⟨h.2.1, .inl ⟨h.1, h.2.2.mem⟩⟩
    · unfold Lone; simp only [SinkConc.setPc, upd, if_true]; exact .inr (.inl h)
  case async =>
    unfold SinkConc.step; simp only [hp]; rw [if_neg (by rw [hl]; simp)]
    unfold Lone; simp only [SinkConc.setPc, upd, if_true]
    obtain ⟨h1, h2 | h2⟩ := h
    · exact .inr (.inr (.inl ⟨h2.1, trivial, h1, h2.2⟩))
    · exact .inr (.inr (.inr ⟨h2.1, h2.2, h1⟩))
  case enter r =>
    have hf := hflag (by rw [hp]; rfl)
    unfold SinkConc.step; simp only [hp]; rw [if_neg (by rw [hf]; simp)]
    unfold Lone; simp only [SinkConc.setPc, upd, if_true]; exact h
  case get r =>
    obtain ⟨h1, h2, h3⟩ := h
    unfold SinkConc.step; simp only [hp]
    rcases h3 with ⟨⟨⟨e, he, hpu⟩, ht⟩, hn⟩ | ⟨⟨⟨e, he, hpu⟩, ht⟩, hn⟩
    · rw [show a.put[a.taken]? = some e by rw [hpu, ht]; simp]
      dsimp only
      split
      · unfold Lone SinkConc.taking; rw [hk]; simp only [SinkConc.setPc, upd, if_true]
        exact ⟨h1, h2, ⟨⟨e, he, hpu⟩, by show a.taken + 1 = _; rw [ht]⟩, hn⟩
      · unfold Lone; rw [hp]; exact ⟨h1, h2, .inl ⟨⟨⟨e, he, hpu⟩, ht⟩, hn⟩⟩
    · rw [show a.put[a.taken]? = none by rw [hpu, ht]; simp]
      dsimp only
      unfold Lone SinkConc.nothing; rw [hk]; simp only [SinkConc.setPc, upd, if_true]
      exact ⟨h1, h2, ⟨⟨e, he, hpu⟩, ht⟩, hn⟩
  case uncount r e => unfold SinkConc.step; simp only [hp]; unfold Lone; simp only [SinkConc.setPc, upd, if_true]; exact h
  case unref r e => unfold SinkConc.step; simp only [hp]; unfold Lone; simp only [SinkConc.setPc, upd, if_true]; exact h
  case write r e =>
    cases e with
    | none => unfold SinkConc.step; simp only [hp]; unfold Lone; simp only [SinkConc.setPc, upd, if_true]; exact h
    | some e =>
      unfold SinkConc.step; simp only [hp]
      split
      · unfold Lone; simp only [SinkConc.setPc, upd, if_true]; exact h
      · unfold Lone; simp only [SinkConc.setPc, upd, if_true]; exact h
  case casFlush r =>
    unfold SinkConc.step; simp only [hp]; rw [if_pos (by rw [h.2.2.2, hc]; rfl)]
    unfold Lone; simp only [SinkConc.setPc, upd, if_true]; exact ⟨h.1, h.2.1, h.2.2.1⟩
  case sync r =>
    unfold SinkConc.step; simp only [hp]; unfold Lone; simp only [SinkConc.setPc, upd, if_true]; exact ⟨h.1, h.2.1, h.2.2, trivial⟩
  case casRotate r =>
    unfold SinkConc.step; simp only [hp]
    split
    · unfold Lone; simp only [SinkConc.setPc, upd, if_true]; exact h
    · unfold Lone; simp only [SinkConc.setPc, upd, if_true]; exact h
  case reopen r =>
    unfold SinkConc.step; simp only [hp]
    split
    · unfold Lone; simp only [SinkConc.setPc, upd, if_true]; exact ⟨h.1, h.2.1, h.2.2.1, trivial⟩
    · unfold Lone; simp only [SinkConc.setPc, upd, if_true]; exact h
  case leave r =>
    obtain ⟨h1, h2, h3, h4⟩ := h
    subst h1
    unfold SinkConc.step; simp only [hp]
    unfold Lone; simp only [SinkConc.setPc, upd, if_true, SinkConc.afterFlush]
    exact .inr (.inr (.inr ⟨h3, h4, h2⟩))
  all_goals cases h

/-- the thread enters the sink for the next call of its list -/
theorem lone_enter {P : List Event} {c : LeafCfg} {t : Tid} {m : Msg} {q : Req} {rem : List Req} {a : SinkConc.St}
    (hi : a.pc t = .idle) (h : Lone P (fun e => EventOf c e m) t m (q :: rem) a) {call : SinkConc.Call} (hs : Serves c q call) :
    Lone P (fun e => EventOf c e m) t m rem (SinkConc.setPc a t (SinkConc.firstPC call)) := by
  unfold Lone at h
  rw [hi] at h
  dsimp only at h
  unfold Lone
  rcases h with ⟨h1, r, h2, h3, h4⟩ | ⟨h1, h2, r, h3, h4⟩ | ⟨h1, h2, h3, h4⟩ | ⟨h1, h2, h3⟩
  · injection h2 with h2 h5
    subst h2 h5
    cases hs with
    | push m env =>
      simp only [SinkConc.setPc, upd, if_true, SinkConc.firstPC]
      exact ⟨h1, ⟨env, rfl⟩, h3, h4⟩
  · injection h3 with h3 h5
    subst h3 h5
    cases hs
    simp only [SinkConc.setPc, upd, if_true, SinkConc.firstPC]
    exact ⟨fun q hq => h2 q (List.mem_cons_of_mem _ hq), .inl ⟨h1, h4⟩⟩
  · have hrem : OnlyReq rem := fun q hq => h3 q (List.mem_cons_of_mem _ hq)
    rcases h3 q List.mem_cons_self with e | e <;> subst e <;> cases hs <;> simp only [SinkConc.setPc, upd, if_true, SinkConc.firstPC]
    · exact ⟨trivial, hrem, .inl ⟨h1, h2⟩⟩
    · exact ⟨hrem, .inl ⟨h1, (List.mem_cons.1 h4).resolve_left (by simp)⟩⟩
  · have hrem : OnlyReq rem := fun q hq => h3 q (List.mem_cons_of_mem _ hq)
    rcases h3 q List.mem_cons_self with e | e <;> subst e <;> cases hs <;> simp only [SinkConc.setPc, upd, if_true, SinkConc.firstPC]
    · exact ⟨trivial, hrem, .inr ⟨h1, h2⟩⟩
    · exact ⟨hrem, .inr ⟨h1, h2⟩⟩

/-- a call starts in both sinks -/
theorem rel_call {c : SinkConc.Cfg} {f : SinkFull.St} {a : SinkConc.St} (h : Rel c f a) {t : Tid} (hi : f.pc t = .idle) (call : SinkConc.Call) :
    Rel c (SinkFull.setPc f t (SinkFull.startPC call)) (SinkConc.setPc a t (SinkConc.firstPC call)) := by
  obtain ⟨he, base, hR⟩ := h
  rw [he]
  cases call with
  | push e => exact SinkFull.Rel.mk (hR.simple t f (.put e) (.put e) rfl rfl rfl (by rw [hi]; rfl) rfl)
  | flush => exact SinkFull.Rel.mk (hR.simple t f (.enter .done) (.enter .done) rfl rfl rfl (by rw [hi]; rfl) rfl)
  | asyncFlush => exact SinkFull.Rel.mk (hR.simple t f .async .async rfl rfl rfl (by rw [hi]; rfl) rfl)
  | rotate => exact SinkFull.Rel.mk (hR.simple t f .rotate .rotate rfl rfl rfl (by rw [hi]; rfl) rfl)

/-- the same about the sink on the real queue -/
def LoneFull (c : LeafCfg) (P : List Event) (t : Tid) (m : Msg) (rem : List Req) (f : SinkFull.St) : Prop :=
  ∃ a, SinkConc.Reach c.conc true a ∧ Rel c.conc f a ∧ (∀ u, u ≠ t → (a.pc u).inBody = false) ∧ Lone P (fun e => EventOf c e m) t m rem a

theorem LoneFull.step {c : LeafCfg} (hcap : 0 < c.conc.capacity) (hl : c.conc.latency0 = false) (hk : c.conc.isSyslog = false) {P : List Event}
    {t : Tid} {m : Msg} {rem : List Req} {f : SinkFull.St} (h : LoneFull c P t m rem f) {ch : SinkConc.Ch} (hc : ch.casOk = true) :
    LoneFull c P t m rem (SinkFull.step c.conc f t ch) := by
  obtain ⟨a, h1, h2, h3, h4⟩ := h
  refine ⟨_, ?_, rel_step h2 h1 t ch, ?_, ?_⟩
  · split
    · exact .next h1 (.step _ t ch)
    · exact h1
  · intro u hu
    split
    · rw [SinkConc.step_pc_other _ _ _ _ u hu]; exact h3 u hu
    · exact h3 u hu
  · split
    · exact lone_step hcap hl hk h1 h3 h4 hc
    · exact h4

theorem LoneFull.enter {c : LeafCfg} {P : List Event} {t : Tid} {m : Msg} {q : Req} {rem : List Req} {f : SinkFull.St}
    (h : LoneFull c P t m (q :: rem) f) (ht : t ≠ workerTid) (hi : f.pc t = .idle) (ho : f.owner = none) {call : SinkConc.Call} (hs : Serves c q call) :
    LoneFull c P t m rem (SinkFull.setPc f t (SinkFull.startPC call)) := by
  obtain ⟨a, h1, h2, h3, h4⟩ := h
  have hai : a.pc t = .idle := rel_simple_pc h2 (by rw [hi]; rfl)
  have hao : a.owner = none := by rw [h2.1]; exact ho
  refine ⟨_, ?_, rel_call h2 hi call, ?_, lone_enter hai h4 hs⟩
  · have := SinkConc.Reach.next h1 (SinkConc.Exec.call a t ht hai hao call)
    cases call <;> exact this
  · intro u hu
    show (upd _ _ _ _ : SinkConc.PC).inBody = _
    rw [upd, if_neg hu]; exact h3 u hu

/-! ### the program -/

/-- what the thread still has to call on sink `k` before its log call is over -/
def remaining (S : Setup) (k j : Nat) (m : Msg) (s : St) (t : Tid) (i : Nat) (r : System.Conc.Rec) : List Req → Prop := fun rem =>
  match s.sys.pc t with
  | .log1 i' r' => i' = i ∧ r' = r ∧ rem = onSink k (s.todo t) ++ (onSink k (pushPlan S m (S.snk j)) ++ onSink k (flushPlan (S.snk j)))
  | .log2 i' r' => i' = i ∧ r' = r ∧ rem = onSink k (s.todo t) ++ (onSink k (pushPlan S m (S.snk j)) ++ onSink k (flushPlan (S.snk j)))
  | .log3 i' => i' = i ∧ rem = onSink k (s.todo t) ++ onSink k (flushPlan (S.snk j))
  | .log4 i' => i' = i ∧ rem = onSink k (s.todo t) ++ onSink k (flushPlan (S.snk j))
  | .idle => rem = onSink k (s.todo t)
  | _ => False

structure LoneInv (S : Setup) (P : List Event) (k j : Nat) (t : Tid) (i : Nat) (r : System.Conc.Rec) (g : System.Logger) (s : St) : Prop where
  lgr : s.sys.sys.lgr i = g
  leaf : ∃ rem, remaining S k j (S.msg g.name r) s t i r rem ∧ LoneFull (S.leaf k) P t (S.msg g.name r) rem (s.leaf k)

theorem after_todo (S : Setup) (s : St) (t : Tid) (p : System.Conc.PC) : (s.after S t (s.sys.goto t p)).todo t = [] := by
  simp [St.after, System.Conc.St.goto, upd]

theorem lone_inv {S : Setup} (hS : S.Sound) {t : Tid} {i k j : Nat} {r : System.Conc.Rec} {s0 s : St} (hr : Reach S s0)
    (hk : (S.leaf k).conc.isSyslog = false) (hl : (S.leaf k).conc.latency0 = false) (hop : (S.leaf k).opened = true)
    (hj : (s0.sys.sys.lgr i).sink = some j) (hm : S.snk j ≠ .leaf k) (ha : Admits (s0.sys.sys.lgr i).level r.level)
    (hd : deliveries (S.snk j) S.level r.level k = 1) (hq : NobodyInside (s0.leaf k)) (hw : (s0.leaf k).written = SinkFull.accepted (s0.leaf k))
    (h : LoneCall S t i r k s0 s) :
    LoneInv S (SinkFull.accepted (s0.leaf k)) k j t i r (s0.sys.sys.lgr i) s ∧ t ≠ workerTid := by
  have hrem0 : ∃ r', onSink k (pushPlan S (S.msg (s0.sys.sys.lgr i).name r) (S.snk j)) ++ onSink k (flushPlan (S.snk j)) =
      .push (S.msg (s0.sys.sys.lgr i).name r) :: r' ∧ OnlyReq r' ∧ AsksFirst r' := by
    rw [onSink_push, pend_deliveries]
    rw [show deliveries (S.snk j) S.level (S.msg (s0.sys.sys.lgr i).name r).level k = 1 from hd]
    exact ⟨_, rfl, only_flush k _, asks_multi k _ (delivered_leaf (by rw [hd]; omega)) hm⟩
  induction h with
  | start ht hf hi hal =>
    refine ⟨⟨rfl, onSink k (pushPlan S (S.msg (s0.sys.sys.lgr i).name r) (S.snk j)) ++ onSink k (flushPlan (S.snk j)), ?_, ?_⟩, ht⟩
    · unfold remaining
      rw [show (s0.after S t (s0.sys.goto t (.log1 i r))).sys.pc t = .log1 i r by simp [St.after, System.Conc.St.goto, upd]]
      refine ⟨rfl, rfl, ?_⟩
      rw [after_todo]; rfl
    · show LoneFull _ _ _ _ _ (s0.leaf k)
      have hl0 := leaf_reach hr k
      rw [hop] at hl0
      obtain ⟨a, h1, h2⟩ := rel_refines (hS.room k) hl0
      have hpc : ∀ u, (a.pc u).inBody = false := by
        intro u
        rcases hq u with e | e | e <;> (rw [rel_simple_pc h2 (t := u) (by rw [e]; rfl)]; rfl)
      have hti : (s0.leaf k).pc t = .idle := by
        rcases hf.2 k with e | e
        · exact e
        · rcases hq t with e' | e' | e' <;> first | exact e' | (rw [e] at e'; cases e')
      refine ⟨a, h1, h2, fun u _ => hpc u, ?_⟩
      unfold Lone
      rw [rel_simple_pc h2 (t := t) (by rw [hti]; rfl)]
      refine .inl ⟨⟨(rel_log h2).1, ?_⟩, hrem0⟩
      have hfl : a.flag = false := by
        cases hfl : a.flag with
        | false => rfl
        | true =>
          obtain ⟨u, hu⟩ := (SinkConc.excl_reach h1).free hfl
          rw [hpc u] at hu; cases hu
      have h3 := (SinkConc.flow_reach h1).free hfl
      have h4 := (SinkConc.tick_reach h1).taken
      have h5 : a.written = a.put := by rw [(rel_log h2).2, hw]; exact (rel_log h2).1.symm
      rw [h5] at h3
      have h6 := congrArg List.length h3
      rw [List.length_take] at h6
      rw [show SinkFull.accepted (s0.leaf k) = a.put from (rel_log h2).1.symm]
      omega
  | @system s h hb hf sys' hmv ih =>
    obtain ⟨⟨hg, rem, hrem, hlf⟩, ht⟩ := ih
    refine ⟨?_, ht⟩
    have hb' := hb
    have hstep : sys' = System.Conc.step s.sys t := by
      cases hmv with
      | step hi => rfl
      | _ => exact absurd (by assumption) hb'
    subst hstep
    have htodo := hf.1
    unfold remaining at hrem
    cases hp : s.sys.pc t <;> rw [hp] at hrem <;> dsimp only at hrem
    case log1 i' r' =>
      obtain ⟨rfl, rfl, hrem⟩ := hrem
      have hnew : System.Conc.step s.sys t = s.sys.goto t (.log2 i' r') := by
        unfold System.Conc.step; simp only [hp]
        rw [if_pos]
        rw [hg]; exact ⟨ha.2, ha.1⟩
      rw [hnew]
      refine ⟨hg, rem, ?_, hlf⟩
      unfold remaining
      rw [show (s.after S t (s.sys.goto t (.log2 i' r'))).sys.pc t = .log2 i' r' by simp [St.after, System.Conc.St.goto, upd]]
      refine ⟨rfl, rfl, ?_⟩
      rw [after_todo, hrem, htodo]
    case log2 i' r' =>
      obtain ⟨rfl, rfl, hrem⟩ := hrem
      have hnew : System.Conc.step s.sys t = { s.sys with pc := upd s.sys.pc t (.log3 i'), out := s.sys.out ++ [.push t j r'] } := by
        unfold System.Conc.step; simp only [hp]
        rw [show (s.sys.sys.lgr i').sink = some j by rw [hg]; exact hj]
      rw [hnew]
      refine ⟨hg, rem, ?_, hlf⟩
      unfold remaining
      simp only [St.after, upd, if_true]
      refine ⟨trivial, ?_⟩
      rw [hrem, htodo]
      have hn : nameFor s.sys t = (s0.sys.sys.lgr i').name := by unfold nameFor; rw [hp]; dsimp only; rw [hg]
      simp [planOf, hn, onSink]
    case log3 i' =>
      obtain ⟨rfl, hrem⟩ := hrem
      have hnew : System.Conc.step s.sys t = s.sys.goto t (.log4 i') := by
        unfold System.Conc.step; simp only [hp]
        rw [if_pos]
        rw [hg]
        have h1 : r.level.toNat ≤ (s0.sys.sys.lgr i').level.toNat := ha.2
        have h2 : 1 ≤ r.level.toNat := by
          have := ha.1.1
          cases hv : r.level <;> first | (exact absurd hv this) | decide
        exact Nat.le_trans h2 h1
      rw [hnew]
      refine ⟨hg, rem, ?_, hlf⟩
      unfold remaining
      rw [show (s.after S t (s.sys.goto t (.log4 i'))).sys.pc t = .log4 i' by simp [St.after, System.Conc.St.goto, upd]]
      refine ⟨rfl, ?_⟩
      rw [after_todo, hrem, htodo]
    case log4 i' =>
      obtain ⟨rfl, hrem⟩ := hrem
      have hnew : System.Conc.step s.sys t = { s.sys with pc := upd s.sys.pc t .idle, out := s.sys.out ++ [.flush t j] } := by
        unfold System.Conc.step; simp only [hp]
        rw [show (s.sys.sys.lgr i').sink = some j by rw [hg]; exact hj]
      rw [hnew]
      refine ⟨hg, rem, ?_, hlf⟩
      unfold remaining
      simp only [St.after, upd, if_true]
      rw [hrem, htodo]
      simp [planOf, onSink]
    case idle => exact absurd hp hb'
    all_goals cases hrem
  | @enter s h j' q rest call hd' hf hi ho hs ih =>
    obtain ⟨⟨hg, rem, hrem, hlf⟩, ht⟩ := ih
    by_cases hj' : j' = k
    · subst hj'
      refine ⟨⟨hg, ?_⟩, ht⟩
      have key : ∃ x, rem = q :: (onSink j' rest ++ x) ∧ remaining S j' j (S.msg (s0.sys.sys.lgr i).name r)
          { s with todo := upd s.todo t rest, leaf := upd s.leaf j' (SinkFull.setPc (s.leaf j') t (SinkFull.startPC call)) } t i r (onSink j' rest ++ x) := by
        unfold remaining at hrem ⊢
        dsimp only at hrem ⊢
        rw [show upd s.todo t rest t = rest by simp [upd]]
        rw [hd', onSink_cons] at hrem
        cases hp : s.sys.pc t <;> rw [hp] at hrem <;> dsimp only at hrem ⊢
        case log1 => obtain ⟨h1, h2, h3⟩ := hrem; exact ⟨_, h3, h1, h2, rfl⟩
        case log2 => obtain ⟨h1, h2, h3⟩ := hrem; exact ⟨_, h3, h1, h2, rfl⟩
        case log3 => obtain ⟨h1, h3⟩ := hrem; exact ⟨_, h3, h1, rfl⟩
        case log4 => obtain ⟨h1, h3⟩ := hrem; exact ⟨_, h3, h1, rfl⟩
        case idle => exact ⟨[], by rw [hrem, List.append_nil], by rw [List.append_nil]⟩
        all_goals cases hrem
      obtain ⟨x, e, hx⟩ := key
      refine ⟨_, hx, ?_⟩
      rw [e] at hlf
      show LoneFull _ _ _ _ _ (upd s.leaf j' _ j')
      rw [upd, if_pos rfl]
      exact hlf.enter ht hi ho hs
    · refine ⟨⟨hg, rem, ?_, ?_⟩, ht⟩
      · unfold remaining at hrem ⊢
        dsimp only at hrem ⊢
        rw [show upd s.todo t rest t = rest by simp [upd]]
        rw [hd', onSink_other k j' hj'] at hrem
        exact hrem
      · show LoneFull _ _ _ _ _ (upd s.leaf j' _ k)
        rw [upd, if_neg (Ne.symm hj')]
        exact hlf
  | @leaf s h j' ch hc ih =>
    obtain ⟨⟨hg, rem, hrem, hlf⟩, ht⟩ := ih
    refine ⟨⟨hg, rem, hrem, ?_⟩, ht⟩
    show LoneFull _ _ _ _ _ (upd s.leaf j' _ k)
    by_cases hj' : j' = k
    · subst hj'
      rw [upd, if_pos rfl]
      exact hlf.step (hS.room _) hl hk (hc rfl)
    · rw [upd, if_neg (Ne.symm hj')]
      exact hlf
  | @elsewhere s s' h he hl' hg' hp ht' ih =>
    obtain ⟨⟨hg, rem, hrem, hlf⟩, ht⟩ := ih
    refine ⟨⟨hg'.trans hg, rem, ?_, ?_⟩, ht⟩
    · unfold remaining at hrem ⊢
      rw [hp, ht']; exact hrem
    · rw [hl']; exact hlf

/-- when the call has returned -/
theorem lone_end {S : Setup} (hS : S.Sound) {t : Tid} {i k j : Nat} {r : System.Conc.Rec} {P : List Event} {g : System.Logger} {s : St}
    (hk : (S.leaf k).conc.isSyslog = false) (h : LoneInv S P k j t i r g s) (hb : ¬ Busy s t) (hr : SinkFull.Reach (S.leaf k).conc true (s.leaf k)) :
    ∃ e, EventOf (S.leaf k) e (S.msg g.name r) ∧ SinkFull.accepted (s.leaf k) = P ++ [e] ∧ (s.leaf k).written = P ++ [e] ∧
      SinkFull.inTheSystem (s.leaf k) = (P ++ [e]).flatMap (S.leaf k).conc.render := by
  obtain ⟨_, rem, hrem, a, h1, h2, h3, h4⟩ := h
  have hi : s.sys.pc t = .idle := Classical.byContradiction fun e => hb (.inl e)
  have hf : Free s t := Classical.byContradiction fun e => hb (.inr e)
  unfold remaining at hrem
  rw [hi, hf.1] at hrem
  have hrem : rem = [] := hrem
  subst hrem
  have hpt : a.pc t = .idle := by
    rcases hf.2 k with e | e
    · exact rel_simple_pc h2 (by rw [e]; rfl)
    · have := rel_simple_pc h2 (t := t) (q := .dead) (by rw [e]; rfl)
      unfold Lone at h4; rw [this] at h4; cases h4
  unfold Lone at h4
  rw [hpt] at h4
  rcases h4 with ⟨_, r', h5, _⟩ | ⟨_, _, r', h5, _⟩ | ⟨_, _, _, h5⟩ | ⟨⟨⟨e, he, hpu⟩, htk⟩, h5, _⟩
  · cases h5
  · cases h5
  · cases h5
  · have hfl : a.flag = false := by
      cases hfl : a.flag with
      | false => rfl
      | true =>
        obtain ⟨u, hu⟩ := (SinkConc.excl_reach h1).free hfl
        by_cases e : u = t
        · subst e; rw [hpt] at hu; cases hu
        · rw [h3 u e] at hu; cases hu
    have h6 := (SinkConc.flow_reach h1).free hfl
    rw [hpu, htk, List.take_of_length_le (by simp)] at h6
    have h7 := rel_log h2
    refine ⟨e, he, ?_, ?_, ?_⟩
    · exact h7.1.symm.trans hpu
    · rw [← h7.2, ← h6]
    · have h8 := (SinkFull.C72_exactly_once_in_order _ (hS.room k) _ hr).2.2 hk
      have h9 : (s.leaf k).sbuf = [] := by rw [h2.1] at h5; exact h5
      rw [h9, List.append_nil, ← h7.2, ← h6] at h8
      exact h8

theorem LoneCall.reach {S : Setup} {t : Tid} {i k : Nat} {r : System.Conc.Rec} {s0 s : St} (h : LoneCall S t i r k s0 s) (hr : Reach S s0) :
    Reach S s ∧ t ≠ workerTid := by
  induction h with
  | start ht hf hi ha => exact ⟨.next hr (.system _ t _ ht hf (.log _ i r hi ha)), ht⟩
  | system h hb hf sys' hm ih => exact ⟨.next ih.1 (.system _ t _ ih.2 hf hm), ih.2⟩
  | enter h j q rest call hd hf hi ho hs ih => exact ⟨.next ih.1 (.enter _ t j q rest call ih.2 hd hf hi ho hs), ih.2⟩
  | leaf h j ch hc ih => exact ⟨.next ih.1 (.leaf _ j t ch), ih.2⟩
  | elsewhere h he hl hg hp ht ih => exact ⟨.next ih.1 he, ih.2⟩

end Many
end Soralog
