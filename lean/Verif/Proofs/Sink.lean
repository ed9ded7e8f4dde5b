import Verif.Spec.SinkTerms
import Verif.Spec.Delivery
import Verif.Proofs.Render
/-!
# Invariants of one sink under histories of calls
-/
namespace Soralog
namespace Sink
open Spec

theorem rejects_iff (a v : Level) : rejects a v = false ↔ Admits a v := by
  unfold rejects Admits Real
  simp only [Bool.or_eq_false_iff, decide_eq_false_iff_not]
  show (¬ (a.toNat < v.toNat) ∧ _) ∧ _ ↔ (_ ∧ _) ∧ v.toNat ≤ a.toNat
  constructor
  · rintro ⟨⟨h1, h2⟩, h3⟩; exact ⟨⟨h2, h3⟩, by omega⟩
  · rintro ⟨⟨h2, h3⟩, h1⟩; exact ⟨⟨by omega, h2⟩, h3⟩

theorem rejects_true_iff (a v : Level) : rejects a v = true ↔ ¬ Admits a v := by
  rw [← rejects_iff]; cases rejects a v <;> simp

theorem addSize_mod (a b n : Nat) (h : a = n % word) : addSize a b = (n + b) % word := by
  subst h; unfold addSize; rw [Nat.mod_add_mod]

theorem subSize_mod (a b n : Nat) (h : a = (b + n) % word) : subSize a b = n % word := by
  subst h
  unfold subSize word
  omega

instance (k : Kind) : Decidable (Stream k) := by unfold Stream; split <;> infer_instance

/-- Everything that holds of a sink between two calls; `o`: the file was open from the beginning. -/
structure Leaf.Ok (o : Bool) (l : Leaf) : Prop where
  opened : o = true → l.isOpen
  cap : l.queue.length ≤ l.cfg.capacity
  size : l.size = totalLength l.queue % word
  split : ∃ done, l.accepted = done ++ l.queue ∧
    (Stream l.cfg.kind → o = true → l.written.map (·.2) = done.map fun e => (l.record e).out)
  zero : l.cfg.latency = 0 → l.queue = []
  null : l.cfg.kind = .nowhere → l.queue = []

/-- What never changes, and what only grows. -/
structure Leaf.Same (l l' : Leaf) : Prop where
  cfg : l'.cfg = l.cfg
  w : l'.w = l.w
  opened : l.isOpen → l'.isOpen

theorem Leaf.Same.refl (l : Leaf) : l.Same l := ⟨rfl, rfl, id⟩
theorem Leaf.Same.trans {a b c : Leaf} (h : a.Same b) (h' : b.Same c) : a.Same c :=
  ⟨h'.cfg.trans h.cfg, h'.w.trans h.w, fun x => h'.opened (h.opened x)⟩

theorem record_congr {l l' : Leaf} (hc : l'.cfg = l.cfg) (hw : l'.w = l.w) (e : Event) : l'.record e = l.record e := by
  unfold Leaf.record Leaf.staging
  rw [hc, hw]

theorem totalLength_cons (e : Event) (q : List Event) : totalLength (e :: q) = e.message.length + totalLength q := by
  simp [totalLength]

theorem totalLength_append (a b : List Event) : totalLength (a ++ b) = totalLength a + totalLength b := by
  simp [totalLength]

/-- the part of `Ok` kept by `flushStream`, without the emptiness facts -/
structure Leaf.Ok0 (o : Bool) (l : Leaf) : Prop where
  opened : o = true → l.isOpen
  cap : l.queue.length ≤ l.cfg.capacity
  size : l.size = totalLength l.queue % word
  split : ∃ done, l.accepted = done ++ l.queue ∧
    (Stream l.cfg.kind → o = true → l.written.map (·.2) = done.map fun e => (l.record e).out)

theorem Leaf.Ok.ok0 {o : Bool} {l : Leaf} (h : l.Ok o) : l.Ok0 o := ⟨h.opened, h.cap, h.size, h.split⟩

theorem flushStream_same (l : Leaf) : l.Same l.flushStream ∧ l.flushStream.isOpen = l.isOpen := by
  unfold Leaf.flushStream
  cases hq : l.queue with
  | nil => exact ⟨Leaf.Same.refl l, rfl⟩
  | cons e q =>
    dsimp only
    unfold Leaf.clearNeedFlush Leaf.write
    dsimp only
    split <;> exact ⟨⟨rfl, rfl, id⟩, rfl⟩

theorem flushStream_queue (l : Leaf) : l.flushStream.queue = l.queue.tail := by
  unfold Leaf.flushStream
  cases hq : l.queue with
  | nil => rw [hq]; rfl
  | cons e q =>
    dsimp only
    unfold Leaf.clearNeedFlush Leaf.write
    dsimp only
    split <;> rfl

theorem flushStream_accepted (l : Leaf) : l.flushStream.accepted = l.accepted := by
  unfold Leaf.flushStream
  cases hq : l.queue with
  | nil => rfl
  | cons e q =>
    dsimp only
    unfold Leaf.clearNeedFlush Leaf.write
    dsimp only
    split <;> rfl

theorem flushStream_written (l : Leaf) (ho : l.isOpen) :
    l.flushStream.written = l.written ++ (l.queue.take 1).map fun e => (l.gen, (l.record e).out) := by
  unfold Leaf.flushStream
  cases hq : l.queue with
  | nil => simp
  | cons e q =>
    dsimp only
    unfold Leaf.clearNeedFlush Leaf.write
    dsimp only
    rw [if_pos ho]
    rfl

theorem flushStream_size (l : Leaf) (h : l.size = totalLength l.queue % word) :
    l.flushStream.size = totalLength l.flushStream.queue % word := by
  rw [flushStream_queue]
  unfold Leaf.flushStream
  cases hq : l.queue with
  | nil => rw [h, hq]; rfl
  | cons e q =>
    dsimp only
    unfold Leaf.clearNeedFlush Leaf.write
    dsimp only
    rw [hq, totalLength_cons] at h
    have := subSize_mod _ _ _ h
    split <;> exact this

theorem flushStream_ok0 {o : Bool} {l : Leaf} (h : l.Ok0 o) : l.flushStream.Ok0 o := by
  have hs := flushStream_same l
  refine ⟨fun ho => hs.1.opened (h.opened ho), ?_, flushStream_size l h.size, ?_⟩
  · rw [flushStream_queue, hs.1.cfg]
    have := h.cap
    have : l.queue.tail.length ≤ l.queue.length := by simp
    omega
  · obtain ⟨done, ha, hw⟩ := h.split
    refine ⟨done ++ l.queue.take 1, ?_, ?_⟩
    · rw [flushStream_accepted, flushStream_queue, ha, List.append_assoc]
      congr 1
      cases l.queue <;> simp
    · intro hk ho
      rw [hs.1.cfg] at hk
      rw [flushStream_written l (h.opened ho), List.map_append, hw hk ho, List.map_append]
      congr 1
      · exact List.map_congr_left fun e _ => (congrArg Render.W.out (record_congr hs.1.cfg hs.1.w e)).symm
      · rw [List.map_map]
        exact List.map_congr_left fun e _ => (congrArg Render.W.out (record_congr hs.1.cfg hs.1.w e)).symm

/-! ### rotation -/

theorem maybeRotate_same (l : Leaf) : l.Same l.maybeRotate := by
  unfold Leaf.maybeRotate
  dsimp only
  split
  · split
    · exact ⟨rfl, rfl, fun _ => rfl⟩
    · exact ⟨rfl, rfl, id⟩
  · exact ⟨rfl, rfl, id⟩

theorem maybeRotate_fields (l : Leaf) : l.maybeRotate.queue = l.queue ∧ l.maybeRotate.size = l.size ∧
    l.maybeRotate.accepted = l.accepted ∧ l.maybeRotate.written = l.written ∧ l.maybeRotate.ub = l.ub := by
  unfold Leaf.maybeRotate
  dsimp only
  split
  · split <;> exact ⟨rfl, rfl, rfl, rfl, rfl⟩
  · exact ⟨rfl, rfl, rfl, rfl, rfl⟩

/-! ### syslog -/

theorem drain_fields (es : List Event) (c : Render.Cache) (w : Render.W) (l : Leaf) :
    (Leaf.drainSyslog es c w l).queue = [] ∧ (Leaf.drainSyslog es c w l).accepted = l.accepted ∧
    (Leaf.drainSyslog es c w l).cfg = l.cfg ∧ (Leaf.drainSyslog es c w l).w = l.w ∧
    (Leaf.drainSyslog es c w l).isOpen = l.isOpen ∧ (Leaf.drainSyslog es c w l).needFlush = false := by
  induction es generalizing c w l with
  | nil => exact ⟨rfl, rfl, rfl, rfl, rfl, rfl⟩
  | cons e es ih =>
    rw [Leaf.drainSyslog]
    dsimp only
    refine (ih _ _ _).imp id fun h => ?_
    obtain ⟨h1, h2, h3, h4, h5⟩ := h
    refine ⟨h1.trans ?_, h2.trans ?_, h3.trans ?_, h4.trans ?_, h5⟩ <;> (dsimp only; split <;> rfl)

theorem drain_size (es : List Event) (c : Render.Cache) (w : Render.W) (l : Leaf)
    (h : l.size = totalLength es % word) : (Leaf.drainSyslog es c w l).size = 0 := by
  induction es generalizing c w l with
  | nil => exact h
  | cons e es ih =>
    rw [Leaf.drainSyslog]
    dsimp only
    apply ih
    dsimp only
    rw [totalLength_cons] at h
    have := subSize_mod _ _ _ h
    split <;> exact this

theorem discard_fields (es : List Event) (l : Leaf) (h : l.queue = es) :
    (Leaf.discard es l).queue = [] ∧ (Leaf.discard es l).accepted = l.accepted ∧
    (Leaf.discard es l).cfg = l.cfg ∧ (Leaf.discard es l).w = l.w ∧ (Leaf.discard es l).isOpen = l.isOpen ∧
    (Leaf.discard es l).size = l.size := by
  induction es generalizing l with
  | nil => exact ⟨h, rfl, rfl, rfl, rfl, rfl⟩
  | cons e es ih =>
    rw [Leaf.discard]
    exact ih _ rfl

/-! ### flush of every class -/

theorem flush_same (l : Leaf) : l.Same l.flush := by
  unfold Leaf.flush
  split
  · exact (flushStream_same l).1
  · exact (flushStream_same l).1.trans (maybeRotate_same _)
  · have := drain_fields l.queue Render.Cache.init l.staging l
    exact ⟨this.2.2.1, this.2.2.2.1, fun h => this.2.2.2.2.1.trans h⟩
  · have := discard_fields l.queue l rfl
    exact ⟨this.2.2.1, this.2.2.2.1, fun h => this.2.2.2.2.1.trans h⟩

theorem flush_accepted (l : Leaf) : l.flush.accepted = l.accepted := by
  unfold Leaf.flush
  split
  · exact flushStream_accepted l
  · exact (maybeRotate_fields _).2.2.1.trans (flushStream_accepted l)
  · exact (drain_fields l.queue Render.Cache.init l.staging l).2.1
  · exact (discard_fields l.queue l rfl).2.1

/-- one event of a console or file sink, all of them for the others -/
theorem flush_queue (l : Leaf) : l.flush.queue = if Stream l.cfg.kind then l.queue.tail else [] := by
  unfold Leaf.flush
  split
  · rename_i h; rw [h]; simp [Stream, flushStream_queue]
  · rename_i h; rw [h]; simp [Stream, flushStream_queue, (maybeRotate_fields _).1]
  · rename_i h; rw [h]; simp [Stream, drain_fields]
  · rename_i h; rw [h]; simp [Stream, discard_fields]

theorem flush_queue_sub (l : Leaf) : l.flush.queue.length ≤ l.queue.length - 1 := by
  rw [flush_queue]; split <;> simp

theorem flush_ok0 {o : Bool} {l : Leaf} (h : l.Ok0 o) (hn : l.cfg.kind = .nowhere → l.queue = []) : l.flush.Ok0 o := by
  unfold Leaf.flush
  split
  · exact flushStream_ok0 h
  · rename_i hk
    have h1 := flushStream_ok0 h
    obtain ⟨f1, f2, f3, f4, _⟩ := maybeRotate_fields l.flushStream
    have hs := maybeRotate_same l.flushStream
    refine ⟨fun ho => hs.opened (h1.opened ho), by rw [f1, hs.cfg]; exact h1.cap, by rw [f1, f2]; exact h1.size, ?_⟩
    obtain ⟨done, ha, hw⟩ := h1.split
    refine ⟨done, by rw [f1, f3]; exact ha, ?_⟩
    intro hst ho
    rw [hs.cfg] at hst
    rw [f4, hw hst ho]
    exact List.map_congr_left fun e _ => (congrArg Render.W.out (record_congr hs.cfg hs.w e)).symm
  · have hf := drain_fields l.queue Render.Cache.init l.staging l
    refine ⟨fun ho => hf.2.2.2.2.1.trans (h.opened ho), by rw [hf.1]; exact Nat.zero_le _, ?_, l.accepted, by rw [hf.1, hf.2.1, List.append_nil], ?_⟩
    · rw [hf.1, drain_size _ _ _ _ h.size]; rfl
    · rename_i hk; intro hst; rw [hf.2.2.1, hk] at hst; exact hst.elim
  · rename_i hk
    have hq := hn hk
    rw [hq]
    exact h

theorem flush_ok {o : Bool} {l : Leaf} (h : l.Ok o) : l.flush.Ok o := by
  have h0 := flush_ok0 h.ok0 h.null
  refine ⟨h0.opened, h0.cap, h0.size, h0.split, ?_, ?_⟩
  · intro hl
    rw [(flush_same l).cfg] at hl
    rw [flush_queue, h.zero hl]; simp
  · intro hk
    rw [(flush_same l).cfg] at hk
    rw [flush_queue, h.null hk]; simp

/-- changing only the request flags changes nothing else -/
theorem ok_flags {o : Bool} {l : Leaf} (h : l.Ok o) (a b : Bool) : ({ l with needFlush := a, needRotate := b }).Ok o :=
  ⟨h.opened, h.cap, h.size, h.split, h.zero, h.null⟩

theorem asyncFlush_ok {o : Bool} {l : Leaf} (h : l.Ok o) : l.asyncFlush.Ok o := by
  unfold Leaf.asyncFlush
  split
  · exact flush_ok h
  · split
    · exact ok_flags h true l.needRotate
    · exact flush_ok h

theorem asyncFlush_same (l : Leaf) : l.Same l.asyncFlush := by
  unfold Leaf.asyncFlush
  split
  · exact flush_same l
  · split
    · exact ⟨rfl, rfl, id⟩
    · exact flush_same l

theorem asyncFlush_accepted (l : Leaf) : l.asyncFlush.accepted = l.accepted := by
  unfold Leaf.asyncFlush
  split
  · exact flush_accepted l
  · split
    · rfl
    · exact flush_accepted l

theorem rotate_ok {o : Bool} {l : Leaf} (h : l.Ok o) : l.rotate.Ok o := by
  unfold Leaf.rotate
  split
  · exact h
  · exact h
  · exact asyncFlush_ok (ok_flags h l.needFlush true)
  · exact flush_ok h

theorem rotate_same (l : Leaf) : l.Same l.rotate := by
  unfold Leaf.rotate
  split
  · exact Leaf.Same.refl l
  · exact Leaf.Same.refl l
  · have h := asyncFlush_same { l with needRotate := true }
    exact ⟨h.cfg, h.w, h.opened⟩
  · exact flush_same l

theorem rotate_accepted (l : Leaf) : l.rotate.accepted = l.accepted := by
  unfold Leaf.rotate
  split
  · rfl
  · rfl
  · exact asyncFlush_accepted { l with needRotate := true }
  · exact flush_accepted l

/-! ### push -/

theorem store_same (l : Leaf) (m : Msg) : l.Same (l.store m) := ⟨rfl, rfl, id⟩

theorem store_ok0 {o : Bool} {l : Leaf} (h : l.Ok0 o) (m : Msg) (hc : l.queue.length < l.cfg.capacity) :
    (l.store m).Ok0 o := by
  unfold Leaf.store
  refine ⟨h.opened, ?_, ?_, ?_⟩ <;> dsimp only
  · rw [List.length_append]; exact hc
  · rw [totalLength_append]
    rw [addSize_mod _ _ _ h.size]
    simp [totalLength]
  · obtain ⟨done, ha, hw⟩ := h.split
    exact ⟨done, by rw [ha, List.append_assoc], hw⟩

/-- The loop of `push` needs at most one forced flush. -/
theorem pushLoop_two {l : Leaf} (m : Msg) (n : Nat) (hc : 1 ≤ l.cfg.capacity) (hq : l.queue.length ≤ l.cfg.capacity) :
    Leaf.pushLoop m (n + 2) l =
      some ((if l.queue.length < l.cfg.capacity then l else l.flush).store m) := by
  rw [Leaf.pushLoop, if_neg (by omega)]
  by_cases h : l.queue.length < l.cfg.capacity
  · rw [if_pos h, if_pos h]
  · rw [if_neg h, if_neg h]
    have hs := flush_same l
    have hl := flush_queue_sub l
    rw [Leaf.pushLoop, if_neg (by rw [hs.cfg]; omega), if_pos (by rw [hs.cfg]; omega)]

theorem afterStore_same (l : Leaf) : l.Same l.afterStore := by
  unfold Leaf.afterStore
  split
  · exact flush_same l
  · split
    · exact asyncFlush_same l
    · exact Leaf.Same.refl l

theorem afterStore_accepted (l : Leaf) : l.afterStore.accepted = l.accepted := by
  unfold Leaf.afterStore
  split
  · exact flush_accepted l
  · split
    · exact asyncFlush_accepted l
    · rfl

/-- What a push of an admissible message does. -/
def Leaf.pushed (l : Leaf) (m : Msg) : Leaf :=
  ((if l.queue.length < l.cfg.capacity then l else l.flush).store m).afterStore

theorem push_admitted {l : Leaf} {m : Msg} (n : Nat) (hc : 1 ≤ l.cfg.capacity) (hq : l.queue.length ≤ l.cfg.capacity)
    (ha : Admits l.cfg.level m.level) : l.push (n + 2) m = some (l.pushed m) := by
  unfold Leaf.push
  rw [(rejects_iff _ _).2 ha, pushLoop_two m n hc hq]
  rfl

theorem push_rejected {l : Leaf} {m : Msg} (n : Nat) (ha : ¬ Admits l.cfg.level m.level) : l.push n m = some l := by
  unfold Leaf.push
  rw [(rejects_true_iff _ _).2 ha]
  rfl

theorem pushed_same (l : Leaf) (m : Msg) : l.Same (l.pushed m) := by
  unfold Leaf.pushed
  split
  · exact (store_same l m).trans (afterStore_same _)
  · exact ((flush_same l).trans (store_same _ m)).trans (afterStore_same _)

theorem pushed_accepted (l : Leaf) (m : Msg) : (l.pushed m).accepted =
    l.accepted ++ [mkEvent (l.w.env l.accepted.length) l.cfg.ti l.cfg.maxLen m] := by
  unfold Leaf.pushed
  rw [afterStore_accepted]
  split
  · rfl
  · unfold Leaf.store
    dsimp only
    rw [flush_accepted, (flush_same l).cfg, (flush_same l).w]

theorem pushed_ok {o : Bool} {l : Leaf} (h : l.Ok o) (m : Msg) (hc : 1 ≤ l.cfg.capacity)
    (hk : l.cfg.kind ≠ .nowhere) : (l.pushed m).Ok o := by
  -- the situation after the store
  have key : ∀ l : Leaf, l.Ok o → 1 ≤ l.cfg.capacity → l.cfg.kind ≠ .nowhere → l.queue.length < l.cfg.capacity →
      ((l.store m).afterStore).Ok o := by
    intro l h hc hk hq
    have h0 := store_ok0 h.ok0 m hq
    have hn : (l.store m).cfg.kind = .nowhere → (l.store m).queue = [] := fun x => absurd x hk
    unfold Leaf.afterStore
    split
    · rename_i hl
      have h1 := flush_ok0 h0 hn
      refine ⟨h1.opened, h1.cap, h1.size, h1.split, ?_, ?_⟩
      · intro _
        rw [flush_queue]
        show (if _ then (l.queue ++ _).tail else _) = _
        rw [h.zero hl]
        split <;> rfl
      · intro x; rw [(flush_same _).cfg] at x; exact absurd x hk
    · rename_i hl
      have h1 : (l.store m).Ok o := ⟨h0.opened, h0.cap, h0.size, h0.split, fun x => absurd x hl, hn⟩
      split
      · exact asyncFlush_ok h1
      · exact h1
  unfold Leaf.pushed
  split
  · rename_i hq; exact key l h hc hk hq
  · rename_i hq
    have hs := flush_same l
    refine key _ (flush_ok h) (by rw [hs.cfg]; exact hc) (by rw [hs.cfg]; exact hk) ?_
    have := flush_queue_sub l
    have := h.cap
    rw [hs.cfg]; omega

/-! ### histories -/

theorem new_ok (cfg : Cfg) (w : World) (o : Bool) : (Leaf.new cfg w o).Ok o := by
  refine ⟨?_, Nat.zero_le _, rfl, ⟨[], rfl, fun _ _ => rfl⟩, fun _ => rfl, fun _ => rfl⟩
  intro ho
  subst ho
  unfold Leaf.new
  dsimp only
  split <;> rfl

theorem not_admits_off (v : Level) : ¬ Admits .off v := by
  rintro ⟨⟨h, _⟩, h2⟩
  apply h
  cases v <;> first | rfl | (exact absurd h2 (by decide))

theorem step_spec {o : Bool} {l : Leaf} (n : Nat) (hv : l.cfg.Valid) (h : l.Ok o) (op : Op) :
    ∃ l', l.step (n + 2) op = some l' ∧ l'.Ok o ∧ l.Same l' ∧
      l'.accepted = l.accepted ++ eventsOf l.w.env l.cfg.ti l.cfg.maxLen l.accepted.length (admitted l.cfg.level [op]) := by
  cases op with
  | push m =>
    by_cases ha : Admits l.cfg.level m.level
    · have hk : l.cfg.kind ≠ .nowhere := by
        intro hk; rw [hv.2 hk] at ha; exact not_admits_off _ ha
      refine ⟨l.pushed m, push_admitted n hv.1 h.cap ha, pushed_ok h m hv.1 hk, pushed_same l m, ?_⟩
      rw [pushed_accepted]
      simp [admitted, ha, eventsOf]
    · refine ⟨l, push_rejected _ ha, h, Leaf.Same.refl l, ?_⟩
      simp [admitted, ha, eventsOf]
  | flush => exact ⟨_, rfl, flush_ok h, flush_same l, by simp [admitted, eventsOf, flush_accepted]⟩
  | asyncFlush => exact ⟨_, rfl, asyncFlush_ok h, asyncFlush_same l, by simp [admitted, eventsOf, asyncFlush_accepted]⟩
  | rotate => exact ⟨_, rfl, rotate_ok h, rotate_same l, by simp [admitted, eventsOf, rotate_accepted]⟩

theorem admitted_cons (lv : Level) (op : Op) (ops : List Op) :
    admitted lv (op :: ops) = admitted lv [op] ++ admitted lv ops := by
  cases op <;> simp [admitted]
  split <;> rfl

theorem eventsOf_append (env : Nat → Env) (ti : ThreadInfo) (ml n : Nat) (a b : List Msg) :
    eventsOf env ti ml n (a ++ b) = eventsOf env ti ml n a ++ eventsOf env ti ml (n + a.length) b := by
  induction a generalizing n with
  | nil => simp [eventsOf]
  | cons m a ih =>
    simp only [List.cons_append, eventsOf, ih, List.length_cons]
    rw [Nat.add_right_comm, Nat.add_assoc]

theorem eventsOf_length (env : Nat → Env) (ti : ThreadInfo) (ml n : Nat) (a : List Msg) :
    (eventsOf env ti ml n a).length = a.length := by
  induction a generalizing n with
  | nil => rfl
  | cons m a ih => simp [eventsOf, ih]

theorem run_spec {o : Bool} {l : Leaf} (n : Nat) (hv : l.cfg.Valid) (h : l.Ok o) (ops : List Op) :
    ∃ l', l.run (n + 2) ops = some l' ∧ l'.Ok o ∧ l.Same l' ∧
      l'.accepted = l.accepted ++ eventsOf l.w.env l.cfg.ti l.cfg.maxLen l.accepted.length (admitted l.cfg.level ops) := by
  induction ops generalizing l with
  | nil => exact ⟨l, rfl, h, Leaf.Same.refl l, by simp [admitted, eventsOf]⟩
  | cons op ops ih =>
    obtain ⟨l1, h1, h2, h3, h4⟩ := step_spec n hv h op
    obtain ⟨l2, g1, g2, g3, g4⟩ := ih (l := l1) (by rw [h3.cfg]; exact hv) h2
    refine ⟨l2, ?_, g2, h3.trans g3, ?_⟩
    · rw [Leaf.run, h1]; exact g1
    · rw [g4, h3.cfg, h3.w, h4, admitted_cons l.cfg.level op ops, eventsOf_append, List.append_assoc, List.length_append, eventsOf_length]

end Sink
end Soralog
