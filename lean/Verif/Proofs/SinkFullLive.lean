import Verif.Proofs.SinkFull
/-!
# The sink on the real queue can do everything the sink on an atomic queue can do

The other direction of `Proofs/SinkFull.lean`: from a state in which nobody holds the lock of the queue, every step of `SinkConc` can be
carried out by steps here.  So both reach the same observable states, and every call can complete.
-/
namespace Soralog
namespace SinkFull
open SinkConc (Cfg Ret Ch Call workerTid)
open Ring (w slotOf building inCS)

theorem Steps.trans {c : Cfg} {a b d : St} (h1 : Steps c a b) (h2 : Steps c b d) : Steps c a d := by
  induction h1 with
  | refl => exact h2
  | more t ch _ ih => exact .more t ch (ih h2)

theorem Steps.reach {c : Cfg} {o : Bool} {a b : St} (h : Steps c a b) (hr : Reach c o a) : Reach c o b := by
  induction h with
  | refl => exact hr
  | more t ch _ ih => exact ih (.next hr (.step _ t ch))

/-- `a` is the state of `SinkConc` that corresponds to `f` -/
def Rel (c : Cfg) (f : St) (a : SinkConc.St) : Prop :=
  a = abs f a.put a.taken a.phase a.held a.pc ∧ ∃ base, R c f a.put a.taken a.pc base

theorem Rel.mk {c : Cfg} {f : St} {put : List Event} {taken : Nat} {phase : Nat → SinkConc.Phase} {held : Bool} {apc : Tid → SinkConc.PC}
    {base : Nat} (h : R c f put taken apc base) : Rel c f (abs f put taken phase held apc) := ⟨rfl, base, h⟩

theorem rel_refines {c : Cfg} {o : Bool} (hcap : 0 < c.capacity) {f : St} (hf : Reach c o f) : ∃ a, SinkConc.Reach c o a ∧ Rel c f a := by
  obtain ⟨put, taken, phase, held, apc, base, hr, hR⟩ := refines hcap hf
  exact ⟨_, hr, .mk hR⟩

theorem rel_step {c : Cfg} {o : Bool} {f : St} {a : SinkConc.St} (h : Rel c f a) (hr : SinkConc.Reach c o a) (t : Tid) (ch : Ch) :
    Rel c (step c f t ch) (if shown f t ch then SinkConc.step c a t ch else a) := by
  obtain ⟨he, base, hR⟩ := h
  rw [he] at hr
  obtain ⟨put, taken, phase, held, apc, base', hm, hR'⟩ := sim_step hR hr t ch
  rw [← he] at hm
  rw [← hm]
  exact .mk hR'

theorem reach_if {c : Cfg} {o : Bool} {a : SinkConc.St} (h : SinkConc.Reach c o a) (v : Bool) (t : Tid) (ch : Ch) :
    SinkConc.Reach c o (if v then SinkConc.step c a t ch else a) := by
  split
  · exact .next h (.step _ t ch)
  · exact h

/-- nobody holds the lock of the queue -/
def Quiet (f : St) : Prop := ∀ t, inCS (f.ring.pc t) = false

/-- points inside the queue -/
def inQueue : PC → Bool
  | .putIn _ | .getIn _ | .sizeIn => true
  | _ => false

theorem not_inQueue {c : Cfg} {rp : Ring.PC Event} {ms : List (Ring.Ref Event)} {at_ : Nat → Nat → Prop} {fp : PC} {ap : SinkConc.PC}
    (h : PCR c rp ms at_ fp ap) (hq : inQueue fp = false) : rp = .idle := by
  cases fp <;> first | (cases hq; done) | exact h.1

/-- a step of a thread inside the queue is a step of the queue -/
theorem step_ring {c : Cfg} {f : St} {t : Tid} (ch : Ch) (hq : inQueue (f.pc t) = true) : (step c f t ch).ring = Ring.tick f.ring t := by
  cases hp : f.pc t <;> rw [hp] at hq <;> first | (cases hq; done) | skip
  · unfold step; simp only [hp]; (repeat' split) <;> rfl
  · unfold step; simp only [hp]; (repeat' split) <;> rfl
  · unfold step; simp only [hp]; (repeat' split) <;> rfl

/-- and it stays there until the call of the queue returns -/
theorem step_inQueue {c : Cfg} {f : St} {a : SinkConc.St} (h : Rel c f a) {t : Tid} (ch : Ch) (hq : inQueue (f.pc t) = true)
    (hr : (Ring.tick f.ring t).pc t ≠ .idle) : inQueue ((step c f t ch).pc t) = true := by
  obtain ⟨_, base, hR⟩ := h
  have hpc := hR.pcs t
  have ho : outside ((Ring.tick f.ring t).pc t) = false := by
    cases hx : (Ring.tick f.ring t).pc t <;> first | rfl | exact absurd hx hr
  cases hp : f.pc t <;> rw [hp] at hq <;> first | (cases hq; done) | skip
  · unfold step; simp only [hp]; rw [ho]; simp [hp, inQueue]
  · unfold step; simp only [hp]; rw [ho]; simp [hp, inQueue]
  · rw [hp] at hpc
    obtain ⟨_, ⟨hph, _⟩ | ⟨n, hrp, _⟩⟩ := hpc
    · rcases phase_size_cases hph with hrp | hrp
      · unfold step; simp only [hp, hrp]; rfl
      · unfold step; simp only [hp, hrp]; rfl
    · exfalso; apply hr; unfold Ring.tick; simp only [hrp]; simp [upd]

theorem shown_inQueue {f : St} {t : Tid} (ch : Ch) (hq : inQueue (f.pc t) = true) :
    shown f t ch = (pending (f.ring.pc t) && !pending ((Ring.tick f.ring t).pc t)) := by
  unfold shown
  cases hp : f.pc t <;> rw [hp] at hq <;> first | (cases hq; done) | rfl

/-- after the linearisation point nothing is pending any more -/
theorem tick_done (s : Ring.St Event) (t : Tid) (h : pending (s.pc t) = false) : pending ((Ring.tick s t).pc t) = false := by
  unfold Ring.tick
  cases hp : s.pc t <;> rw [hp] at h <;> first | (cases h; done) | simp [upd, pending, Ring.phase, hp]

theorem step_ring_other {c : Cfg} {f : St} {t u : Tid} (ch : Ch) (hq : inQueue (f.pc t) = true) (hu : u ≠ t) :
    (step c f t ch).ring.pc u = f.ring.pc u := by rw [step_ring ch hq]; exact tick_other _ hu

/-- A thread inside the queue with nothing in its way gets through: the operation takes effect once, if it had not already. -/
theorem run_queue {c : Cfg} {o : Bool} (t : Tid) (ch : Ch) : ∀ (m : Nat) (f : St) (a : SinkConc.St), Rel c f a → SinkConc.Reach c o a →
    inQueue (f.pc t) = true → Ring.Clear f.ring t → Ring.rank (f.ring.pc t) ≤ m →
    ∃ f', Steps c f f' ∧ Rel c f' (if pending (f.ring.pc t) then SinkConc.step c a t ch else a) ∧ f'.ring.pc t = .idle ∧
      ∀ u, u ≠ t → f'.ring.pc u = f.ring.pc u := by
  intro m
  induction m with
  | zero =>
    intro f a h hr hq hc hm
    have hidle : f.ring.pc t = .idle := by
      generalize f.ring.pc t = p at hm
      cases p <;> simp [Ring.rank] at hm; rfl
    refine ⟨f, .refl f, ?_, hidle, fun _ _ => rfl⟩
    rw [hidle]; exact h
  | succ m ih =>
    intro f a h hr hq hc hm
    by_cases hi : f.ring.pc t = .idle
    · exact ⟨f, .refl f, by rw [hi]; exact h, hi, fun _ _ => rfl⟩
    obtain ⟨_, base, hR⟩ := id h
    obtain ⟨hc', hlt⟩ := Ring.clear_tick hR.inv hc hi
    have h1 := rel_step h hr t ch
    have hr1 := reach_if hr (shown f t ch) t ch
    have hsh := shown_inQueue (t := t) ch hq
    have hring := step_ring (c := c) (t := t) ch hq
    have hoth : ∀ u, u ≠ t → (step c f t ch).ring.pc u = f.ring.pc u := fun u hu => step_ring_other ch hq hu
    by_cases hi' : (Ring.tick f.ring t).pc t = .idle
    · refine ⟨step c f t ch, .more t ch (.refl _), ?_, by rw [hring]; exact hi', hoth⟩
      rw [hsh, hi'] at h1
      rw [show pending (.idle : Ring.PC Event) = false from rfl, Bool.not_false, Bool.and_true] at h1
      exact h1
    · have hq1 := step_inQueue h ch hq hi'
      obtain ⟨f', a1, a2, a3, a4⟩ := ih (step c f t ch) _ h1 hr1 hq1 (by rw [hring]; exact hc') (by rw [hring]; omega)
      refine ⟨f', .more t ch a1, ?_, a3, fun u hu => (a4 u hu).trans (hoth u hu)⟩
      rw [hring, hsh] at a2
      cases hp : pending (f.ring.pc t) with
      | false =>
        rw [hp, tick_done _ _ hp] at a2
        exact a2
      | true =>
        rw [hp] at a2
        cases hp' : pending ((Ring.tick f.ring t).pc t) with
        | false => rw [hp'] at a2; exact a2
        | true => rw [hp'] at a2; exact a2

/-- The holder of the lock of the queue can leave it. -/
theorem quieten {c : Cfg} {o : Bool} {f : St} {a : SinkConc.St} (h : Rel c f a) (hr : SinkConc.Reach c o a) :
    ∃ f', Steps c f f' ∧ Quiet f' := by
  by_cases hq : ∀ t, inCS (f.ring.pc t) = false
  · exact ⟨f, .refl f, hq⟩
  have : ∃ t, inCS (f.ring.pc t) = true := by
    apply Classical.byContradiction
    intro hc; apply hq; intro t
    cases hx : inCS (f.ring.pc t) with
    | false => rfl
    | true => exact absurd ⟨t, hx⟩ hc
  obtain ⟨t, ht⟩ := this
  have key : ∀ (m : Nat) (f : St) (a : SinkConc.St), Rel c f a → SinkConc.Reach c o a → inCS (f.ring.pc t) = true →
      Ring.csRank (f.ring.pc t) ≤ m → ∃ f', Steps c f f' ∧ Quiet f' := by
    intro m
    induction m with
    | zero => intro f a _ _ hcs hm; have := Ring.csRank_pos.2 hcs; omega
    | succ m ih =>
      intro f a h hr hcs hm
      obtain ⟨_, base, hR⟩ := id h
      have hin : inQueue (f.pc t) = true := by
        cases hx : inQueue (f.pc t) with
        | true => rfl
        | false => rw [not_inQueue (hR.pcs t) hx] at hcs; cases hcs
      have hring := step_ring (c := c) (t := t) SinkConc.good hin
      have hlt := Ring.csRank_tick hR.inv hcs
      cases hcs' : inCS ((Ring.tick f.ring t).pc t) with
      | false =>
        refine ⟨step c f t SinkConc.good, .more t _ (.refl _), fun u => ?_⟩
        rw [hring]
        by_cases hu : u = t
        · subst hu; exact hcs'
        · rw [tick_other _ hu]; exact hR.inv.others hcs hu
      | true =>
        obtain ⟨f', h1, h2⟩ := ih _ _ (rel_step h hr t SinkConc.good) (reach_if hr _ t _) (by rw [hring]; exact hcs') (by rw [hring]; omega)
        exact ⟨f', .more t _ h1, h2⟩
  exact key _ f a h hr ht (Nat.le_refl _)

/-! ### where the slots in use are -/

/-- a live `NodeRef` belongs to a thread that is going to destroy it -/
theorem ref_owner {c : Cfg} {f : St} {put : List Event} {taken : Nat} {apc : Tid → SinkConc.PC} {base : Nat}
    (h : R c f put taken apc base) {r : Ring.Ref Event} (hr : r ∈ f.ring.refs) :
    mine f.ring r.owner = [r] ∧
    ((r.fromGet = false ∧ ∃ n, (apc r.owner = .count n ∨ apc r.owner = .release n) ∧ At c.capacity put taken base n r.slot) ∨
     (r.fromGet = true ∧ (apc r.owner).reading = true)) := by
  have hm : r ∈ mine f.ring r.owner := List.mem_filter.2 ⟨hr, isMine_iff.2 rfl⟩
  have hpc := h.pcs r.owner
  have one : ∀ x : Ring.Ref Event, mine f.ring r.owner = [x] → x = r := by
    intro x hx; rw [hx] at hm; exact (List.mem_singleton.1 hm).symm
  cases hp : f.pc r.owner with
  | putIn e => rw [hp] at hpc; rw [hpc.1] at hm; cases hm
  | getIn k => rw [hp] at hpc; rw [hpc.1] at hm; cases hm
  | sizeIn => rw [hp] at hpc; rw [hpc.1] at hm; cases hm
  | count =>
    rw [hp] at hpc
    obtain ⟨_, x, n, h2, h3, h4, h5⟩ := hpc
    have := one x h2; subst this
    exact ⟨h2, Or.inl ⟨h3, n, Or.inl h4, h5⟩⟩
  | release =>
    rw [hp] at hpc
    obtain ⟨_, x, n, h2, h3, h4, h5⟩ := hpc
    have := one x h2; subst this
    exact ⟨h2, Or.inl ⟨h3, n, Or.inr h4, h5⟩⟩
  | uncount k => rw [hp] at hpc; obtain ⟨_, x, h2, h3, h4⟩ := hpc; have := one x h2; subst this; exact ⟨h2, Or.inr ⟨h3, by rw [h4]; rfl⟩⟩
  | unref k e => rw [hp] at hpc; obtain ⟨_, x, h2, h3, h4⟩ := hpc; have := one x h2; subst this; exact ⟨h2, Or.inr ⟨h3, by rw [h4]; rfl⟩⟩
  | sCall k => rw [hp] at hpc; obtain ⟨_, x, h2, h3, h4⟩ := hpc; have := one x h2; subst this; exact ⟨h2, Or.inr ⟨h3, by rw [h4]; rfl⟩⟩
  | sUncount k => rw [hp] at hpc; obtain ⟨_, x, h2, h3, h4⟩ := hpc; have := one x h2; subst this; exact ⟨h2, Or.inr ⟨h3, by rw [h4]; rfl⟩⟩
  | sUnref k => rw [hp] at hpc; obtain ⟨_, x, h2, h3, h4⟩ := hpc; have := one x h2; subst this; exact ⟨h2, Or.inr ⟨h3, by rw [h4]; rfl⟩⟩
  | _ => rw [hp] at hpc; rw [(hpc.of_simple rfl).2.1] at hm; cases hm

theorem reading_inBody {p : SinkConc.PC} (h : p.reading = true) : p.inBody = true := by
  cases p <;> first | rfl | (cases h; done)

/-- the slot being read is the one before `pop_index_` -/
structure Behind (s : Ring.St Event) : Prop where
  refs : ∀ r ∈ s.refs, r.fromGet = true → (r.slot + 1) % s.buf.capacity = s.buf.popIdx
  unlock : ∀ t k v, s.pc t = .getUnlock k v → (k + 1) % s.buf.capacity = s.buf.popIdx

theorem behind_call {s : Ring.St Event} (h : Behind s) (t : Tid) (x : Spec.Call Event) : Behind (Ring.call s t x) := by
  unfold Ring.call
  split
  · refine ⟨h.refs, ?_⟩
    intro u k v hu
    have hu : upd s.pc t _ u = .getUnlock k v := hu
    unfold upd at hu
    split at hu
    · cases x <;> cases hu
    · exact h.unlock u k v hu
  · exact h

theorem behind_drop {s : Ring.St Event} (h : Behind s) (i : Nat) : Behind (Ring.drop s i) := by
  unfold Ring.drop
  split
  · exact h
  · exact ⟨fun r hr => h.refs r (List.mem_of_mem_eraseIdx hr), h.unlock⟩

theorem behind_tick {cap : Nat} {s : Ring.St Event} {q : List Event} {base : Nat} (hI : Ring.Inv cap s q base) (h : Behind s) (t : Tid)
    (hno : ∀ k, s.pc t = .getAdvance k → ∀ r ∈ s.refs, r.fromGet = false) : Behind (Ring.tick s t) := by
  have hpk := hI.pcs t
  -- steps that leave the index and the references alone
  have plain : ∀ s' : Ring.St Event, s'.refs = s.refs → s'.buf.popIdx = s.buf.popIdx → s'.buf.capacity = s.buf.capacity →
      (∀ u, u ≠ t → s'.pc u = s.pc u) → (∀ k v, s'.pc t ≠ .getUnlock k v) → Behind s' := by
    intro s' h1 h2 h3 h4 h5
    refine ⟨fun r hr hg => by rw [h1] at hr; rw [h2, h3]; exact h.refs r hr hg, fun u k v hu => ?_⟩
    by_cases hut : u = t
    · subst hut; exact absurd hu (h5 k v)
    · rw [h2, h3]; exact h.unlock u k v (by rw [← h4 u hut]; exact hu)
  have hoth : ∀ u, u ≠ t → (Ring.tick s t).pc u = s.pc u := fun u hu => tick_other s hu
  cases hp : s.pc t with
  | getAdvance k =>
    rw [hp] at hpk
    have hno := hno k hp
    refine ⟨?_, ?_⟩
    · intro r hr hg
      have hr : r ∈ s.refs := by
        rw [tick_refs, hp] at hr; simpa [newRefs] using hr
      rw [hno r hr] at hg; cases hg
    · intro u k' v hu
      exfalso
      by_cases hut : u = t
      · subst hut
        have : ∀ k' v, (Ring.tick s u).pc u ≠ .getUnlock k' v := by
          intro k' v
          unfold Ring.tick; simp only [hp]; split
          · rw [hp]; simp
          · simp [upd]
        exact this k' v hu
      · rw [hoth u hut] at hu
        have := hI.excl u t (by rw [hu]; rfl) (by rw [hp]; rfl)
        exact hut this
  | getCount k =>
    rw [hp] at hpk
    obtain ⟨a1, a2, a3, a4⟩ := hpk
    have hcap := hI.capEq
    have hb := hI.baseLt
    refine ⟨?_, ?_⟩
    · intro r hr hg
      have hr : r ∈ s.refs := by rw [tick_refs, hp] at hr; simpa [newRefs] using hr
      have := h.refs r hr hg
      unfold Ring.tick; simp only [hp]
      split
      · exact this
      · split <;> exact this
    · intro u k' v hu
      have hx : (Ring.tick s t).buf.popIdx = s.buf.popIdx ∧ (Ring.tick s t).buf.capacity = s.buf.capacity := by
        unfold Ring.tick; simp only [hp]; (repeat' split) <;> exact ⟨rfl, rfl⟩
      rw [hx.1, hx.2]
      by_cases hut : u = t
      · subst hut
        have hkk : k' = k := by
          unfold Ring.tick at hu; simp only [hp] at hu
          split at hu
          · rw [hp] at hu; cases hu
          · split at hu
            · rw [hp] at hu; cases hu
            · simp [upd] at hu; exact hu.1.symm
        rw [hkk, a4, a1, hcap, Ring.mod_w hb (by omega)]
      · rw [hoth u hut] at hu; exact h.unlock u k' v hu
  | getUnlock k v =>
    refine ⟨?_, ?_⟩
    · intro r hr hg
      rw [tick_refs, hp] at hr
      have hx : (Ring.tick s t).buf.popIdx = s.buf.popIdx ∧ (Ring.tick s t).buf.capacity = s.buf.capacity := by
        unfold Ring.tick; simp only [hp]; exact ⟨trivial, trivial⟩
      rw [hx.1, hx.2]
      rcases List.mem_append.1 hr with hr | hr
      · exact h.refs r hr hg
      · have := List.mem_singleton.1 hr
        subst this
        exact h.unlock t k v hp
    · intro u k' v' hu
      have hx : (Ring.tick s t).buf.popIdx = s.buf.popIdx ∧ (Ring.tick s t).buf.capacity = s.buf.capacity := by
        unfold Ring.tick; simp only [hp]; exact ⟨trivial, trivial⟩
      rw [hx.1, hx.2]
      by_cases hut : u = t
      · subst hut
        unfold Ring.tick at hu; simp only [hp] at hu; simp [upd] at hu
      · rw [hoth u hut] at hu; exact h.unlock u k' v' hu
  | putBuild v k =>
    refine ⟨?_, ?_⟩
    · intro r hr hg
      rw [tick_refs, hp] at hr
      have hx : (Ring.tick s t).buf.popIdx = s.buf.popIdx ∧ (Ring.tick s t).buf.capacity = s.buf.capacity := by
        unfold Ring.tick; simp only [hp]; exact ⟨trivial, trivial⟩
      rw [hx.1, hx.2]
      rcases List.mem_append.1 hr with hr | hr
      · exact h.refs r hr hg
      · have := List.mem_singleton.1 hr
        subst this
        cases hg
    · intro u k' v' hu
      have hx : (Ring.tick s t).buf.popIdx = s.buf.popIdx ∧ (Ring.tick s t).buf.capacity = s.buf.capacity := by
        unfold Ring.tick; simp only [hp]; exact ⟨trivial, trivial⟩
      rw [hx.1, hx.2]
      by_cases hut : u = t
      · subst hut
        unfold Ring.tick at hu; simp only [hp] at hu; simp [upd] at hu
      · rw [hoth u hut] at hu; exact h.unlock u k' v' hu
  | _ =>
    refine plain _ (by rw [tick_refs, hp]; simp [newRefs]) ?_ ?_ hoth ?_
    · unfold Ring.tick; simp only [hp] <;> (repeat' split) <;> rfl
    · unfold Ring.tick; simp only [hp] <;> (repeat' split) <;> rfl
    · unfold Ring.tick; simp only [hp] <;> (repeat' split) <;> simp [upd, hp]

/-- the queue changes only by its own operations -/
theorem step_ring_cases (c : Cfg) (f : St) (t : Tid) (ch : Ch) :
    (step c f t ch).ring = f.ring ∨ (∃ x, (step c f t ch).ring = Ring.call f.ring t x) ∨
    (∃ i, (step c f t ch).ring = Ring.drop f.ring i) ∨ (inQueue (f.pc t) = true ∧ (step c f t ch).ring = Ring.tick f.ring t) := by
  by_cases hq : inQueue (f.pc t) = true
  · exact Or.inr (Or.inr (Or.inr ⟨hq, step_ring ch hq⟩))
  cases hp : f.pc t with
  | putIn e => rw [hp] at hq; exact absurd rfl hq
  | getIn e => rw [hp] at hq; exact absurd rfl hq
  | sizeIn => rw [hp] at hq; exact absurd rfl hq
  | put e => right; left; exact ⟨.put e, by unfold step; simp only [hp]; rfl⟩
  | get k => right; left; exact ⟨.get, by unfold step; simp only [hp]; rfl⟩
  | wSize => right; left; exact ⟨.size, by unfold step; simp only [hp]; rfl⟩
  | release => right; right; left; exact ⟨_, by unfold step; simp only [hp]; rfl⟩
  | unref k e => right; right; left; exact ⟨_, by unfold step; simp only [hp]; rfl⟩
  | sUnref k => right; right; left; exact ⟨_, by unfold step; simp only [hp]; rfl⟩
  | write k e => left; cases e <;> (unfold step; simp only [hp] <;> (repeat' split) <;> rfl)
  | _ => left; unfold step; simp only [hp] <;> (repeat' split) <;> rfl

theorem behind_reach {c : Cfg} {o : Bool} (hcap : 0 < c.capacity) {f : St} (hf : Reach c o f) : Behind f.ring := by
  induction hf with
  | init => exact ⟨fun r hr => (by cases hr), fun t k v h => (by cases h)⟩
  | @next f f' hf he ih =>
    cases he with
    | call t ht hi hd call => exact ih
    | destroy t ht hd hi => exact ih
    | step t ch =>
      rcases step_ring_cases c f t ch with h | ⟨x, h⟩ | ⟨i, h⟩ | ⟨hq, h⟩
      · rw [h]; exact ih
      · rw [h]; exact behind_call ih t x
      · rw [h]; exact behind_drop ih i
      · rw [h]
        obtain ⟨put, taken, phase, held, apc, base, hr, hR⟩ := refines hcap hf
        refine behind_tick hR.inv ih t ?_
        intro k hk r hrm
        cases hg : r.fromGet with
        | false => rfl
        | true =>
          exfalso
          obtain ⟨h1, h2⟩ := ref_owner hR hrm
          rcases h2 with ⟨h2, _⟩ | ⟨_, h2⟩
          · rw [hg] at h2; cases h2
          have hpc := hR.pcs t
          have hbody : (apc t).inBody = true ∧ mine f.ring t = [] := by
            cases hp : f.pc t <;> rw [hp] at hq hpc <;> first | (cases hq; done) | skip
            · exfalso
              obtain ⟨_, ⟨h3, _⟩ | ⟨h3, _⟩ | ⟨_, _, h3, _⟩⟩ := hpc
              · rw [hk] at h3; simp [Ring.phase] at h3
              · rw [hk] at h3; cases h3
              · rw [hk] at h3; simp [building] at h3
            · obtain ⟨h0, ⟨_, h3⟩ | ⟨h3, _⟩ | ⟨_, _, h3, _⟩⟩ := hpc
              · exact ⟨by rw [h3]; rfl, h0⟩
              · rw [hk] at h3; cases h3
              · rw [hk] at h3; cases h3
            · exfalso
              obtain ⟨_, ⟨h3, _⟩ | ⟨_, h3, _⟩⟩ := hpc
              · rw [hk] at h3; simp [Ring.phase] at h3
              · rw [hk] at h3; cases h3
          have := (SinkConc.excl_reach hr).uniq r.owner t (reading_inBody h2) hbody.1
          rw [this, hbody.2] at h1
          cases h1

/-! ### every step of `SinkConc` can be carried out -/

theorem quiet_free {c : Cfg} {f : St} {put : List Event} {taken : Nat} {apc : Tid → SinkConc.PC} {base : Nat}
    (h : R c f put taken apc base) (hq : Quiet f) : f.ring.buf.busy = false := by
  cases hb : f.ring.buf.busy with
  | false => rfl
  | true =>
    obtain ⟨t, ht⟩ := h.inv.lock.1 hb
    rw [hq t] at ht; cases ht

/-- when nobody holds the lock, a slot in use is being constructed or has a `NodeRef` -/
theorem quiet_slot {rp : Ring.PC Event} (h : inCS rp = false) {k : Nat} (hk : slotOf rp = some k) : ∃ v, building rp = some (v, k) := by
  cases rp <;> first | (cases h; done) | (cases hk; done) | (cases hk; exact ⟨_, rfl⟩)

/-- a thread constructing an element -/
theorem building_at {c : Cfg} {f : St} {put : List Event} {taken : Nat} {apc : Tid → SinkConc.PC} {base : Nat}
    (h : R c f put taken apc base) {u : Tid} {v : Event} {k : Nat} (hb : building (f.ring.pc u) = some (v, k)) :
    ∃ n, apc u = .count n ∧ At c.capacity put taken base n k := by
  have hpc := h.pcs u
  have hne : f.ring.pc u ≠ .idle := by intro he; rw [he] at hb; cases hb
  have hd : pending (f.ring.pc u) = false ∧ f.ring.pc u ≠ .getEmpty ∧ (∀ i w, f.ring.pc u ≠ .getUnlock i w) ∧
      (∀ e, f.ring.pc u ≠ .putFull e) ∧ ∀ x n, f.ring.pc u ≠ .obsUnlock x n := by
    cases hx : f.ring.pc u <;> rw [hx] at hb <;> first | (cases hb; done) | exact ⟨rfl, by simp, by simp, by simp, by simp⟩
  obtain ⟨d1, d2, d3, d4, d5⟩ := hd
  cases hp : f.pc u with
  | putIn e =>
    rw [hp] at hpc
    obtain ⟨_, ⟨h3, _⟩ | ⟨h3, _⟩ | ⟨k', n, h3, h4, h5⟩⟩ := hpc
    · rw [pending_called h3] at d1; cases d1
    · exact absurd h3 (d4 e)
    · rw [hb] at h3
      have : k = k' := by injection h3 with h3; injection h3
      subst this
      exact ⟨n, h4, h5⟩
  | getIn k' =>
    rw [hp] at hpc
    obtain ⟨_, ⟨h3, _⟩ | ⟨h3, _⟩ | ⟨i, w, h3, _⟩⟩ := hpc
    · rw [pending_called h3] at d1; cases d1
    · exact absurd h3 d2
    · exact absurd h3 (d3 i w)
  | sizeIn =>
    rw [hp] at hpc
    obtain ⟨_, ⟨h3, _⟩ | ⟨n, h3, _⟩⟩ := hpc
    · rw [pending_called h3] at d1; cases d1
    · exact absurd h3 (d5 _ n)
  | count => rw [hp] at hpc; exact absurd hpc.1 hne
  | release => rw [hp] at hpc; exact absurd hpc.1 hne
  | uncount k' => rw [hp] at hpc; exact absurd hpc.1 hne
  | unref k' e => rw [hp] at hpc; exact absurd hpc.1 hne
  | sCall k' => rw [hp] at hpc; exact absurd hpc.1 hne
  | sUncount k' => rw [hp] at hpc; exact absurd hpc.1 hne
  | sUnref k' => rw [hp] at hpc; exact absurd hpc.1 hne
  | _ => rw [hp] at hpc; exact absurd (hpc.of_simple rfl).1 hne

/-- a slot in use belongs to a queued element that is not free yet, or to the element being read -/
theorem used_slot {c : Cfg} {f : St} {put : List Event} {taken : Nat} {apc : Tid → SinkConc.PC} {base : Nat}
    (h : R c f put taken apc base) (hq : Quiet f) {k : Nat} (hk : f.ring.buf.nodeBusy k = true) :
    (∃ u n, (apc u = .count n ∨ apc u = .release n) ∧ At c.capacity put taken base n k) ∨
    (∃ r ∈ f.ring.refs, r.fromGet = true ∧ r.slot = k ∧ (apc r.owner).reading = true) := by
  rcases (h.inv.owned k).1 hk with ⟨u, hu⟩ | ⟨r, hr, hs⟩
  · left
    obtain ⟨v, hv⟩ := quiet_slot (hq u) hu
    obtain ⟨n, h1, h2⟩ := building_at h hv
    exact ⟨u, n, Or.inl h1, h2⟩
  · obtain ⟨_, ⟨h1, n, h2, h3⟩ | ⟨h1, h2⟩⟩ := ref_owner h hr
    · left; rw [hs] at h3; exact ⟨r.owner, n, h2, h3⟩
    · right; exact ⟨r, hr, h1, hs, h2⟩

/-- the way is clear for a `put` that `SinkConc` lets through -/
theorem clear_put {c : Cfg} {o : Bool} {f : St} {a : SinkConc.St} (h : Rel c f a) (hr : SinkConc.Reach c o a) (hq : Quiet f)
    (hb : Behind f.ring) {t : Tid} {e : Event} (hp : f.ring.pc t = .putSpin e)
    (hok : ¬(a.held = true ∧ a.queued + 1 = c.capacity)) : Ring.Clear f.ring t := by
  obtain ⟨ha, base, hR⟩ := h
  have hfree := quiet_free hR hq
  refine ⟨Or.inr hfree, ?_⟩
  rw [hp]
  have hpush := hR.inv.pushI (fun u => by have := hq u; cases hx : f.ring.pc u <;> rw [hx] at this <;> first | rfl | cases this)
  have hpop := hR.inv.popI (fun u => by have := hq u; cases hx : f.ring.pc u <;> rw [hx] at this <;> first | rfl | cases this)
  have hcap := hR.inv.capEq
  have hbl := hR.inv.baseLt
  have hlen := hR.inv.len
  rw [List.length_drop] at hlen
  show (f.ring.buf.popIdx = f.ring.buf.pushIdx ∧ f.ring.buf.size ≠ 0) ∨ f.ring.buf.nodeBusy f.ring.buf.pushIdx = false
  by_cases hfull : f.ring.buf.size = c.capacity
  · left
    rw [hpop, hpush, hfull]
    refine ⟨?_, by omega⟩
    unfold w; split <;> omega
  right
  cases hn : f.ring.buf.nodeBusy f.ring.buf.pushIdx with
  | false => rfl
  | true =>
    exfalso
    have hsz := hR.inv.sizeLe
    rcases used_slot hR hq hn with ⟨u, n, _, hat⟩ | ⟨r, hrm, hg, hs, hread⟩
    · have h1 := hat.slot
      rw [hpush] at h1
      have := Ring.w_inj hbl (by omega) (by have := hat.hi; omega) h1
      have := hat.hi
      have := hat.lo
      omega
    · apply hok
      have hbody := reading_inBody hread
      have hheld : a.held = true := by
        rw [(SinkConc.held_reach hr).body r.owner hbody]; exact hread
      refine ⟨hheld, ?_⟩
      have h1 := hb.refs r hrm hg
      rw [hs, hpush, hpop, hcap, Ring.w_succ hbl (by omega)] at h1
      have hq' : a.queued = f.ring.buf.size := hlen
      rw [hq']
      rcases Nat.lt_or_ge (f.ring.buf.size + 1) c.capacity with hlt | hge
      · have := Ring.w_inj (i := f.ring.buf.size + 1) (j := 0) hbl hlt (by omega) (by rw [Ring.w_zero hbl]; exact h1)
        omega
      · omega

/-- the way is clear for a `get` that `SinkConc` lets through -/
theorem clear_get {c : Cfg} {o : Bool} {f : St} {a : SinkConc.St} (h : Rel c f a) (hr : SinkConc.Reach c o a) (hq : Quiet f)
    {t : Tid} (hp : f.ring.pc t = .getSpin)
    (hok : a.taken < a.put.length → a.phase a.taken = .ready) : Ring.Clear f.ring t := by
  obtain ⟨ha, base, hR⟩ := h
  have hfree := quiet_free hR hq
  refine ⟨Or.inr hfree, ?_⟩
  rw [hp]
  have hpush := hR.inv.pushI (fun u => by have := hq u; cases hx : f.ring.pc u <;> rw [hx] at this <;> first | rfl | cases this)
  have hpop := hR.inv.popI (fun u => by have := hq u; cases hx : f.ring.pc u <;> rw [hx] at this <;> first | rfl | cases this)
  have hbl := hR.inv.baseLt
  have hlen := hR.inv.len
  rw [List.length_drop] at hlen
  show (f.ring.buf.pushIdx = f.ring.buf.popIdx ∧ f.ring.buf.size = 0) ∨ f.ring.buf.nodeBusy f.ring.buf.popIdx = false
  by_cases hemp : f.ring.buf.size = 0
  · left
    rw [hpop, hpush, hemp]
    exact ⟨Ring.w_zero hbl, rfl⟩
  right
  have hlt : a.taken < a.put.length := by omega
  have hrdy := hok hlt
  cases hn : f.ring.buf.nodeBusy f.ring.buf.popIdx with
  | false => rfl
  | true =>
    exfalso
    have hsz := hR.inv.sizeLe
    rcases used_slot hR hq hn with ⟨u, n, hu, hat⟩ | ⟨r, hrm, hg, hs, hread⟩
    · have h1 := hat.slot
      rw [hpop] at h1
      have h2 := Ring.w_inj (i := 0) (j := n - a.taken) hbl (by omega) (by have := hat.hi; omega) (by rw [Ring.w_zero hbl]; exact h1)
      have := hat.lo
      have hn' : n = a.taken := by omega
      subst hn'
      have htk := SinkConc.tick_reach hr
      rcases hu with hu | hu
      · have := (htk.count u _ hu).2.2; rw [hrdy] at this; cases this
      · have := (htk.release u _ hu).2.2; rw [hrdy] at this; cases this
    · exact hR.inv.refGet r hrm hg 0 (by omega) (by rw [hs, hpop, Ring.w_zero hbl])

theorem quiet_of_ring {c : Cfg} {f f' : St} (hq : Quiet f) (h : f'.ring.pc = f.ring.pc) : Quiet f' := fun t => by rw [h]; exact hq t

theorem drop_pc (r : Ring.St Event) (i : Nat) : (Ring.drop r i).pc = r.pc := (drop_refs r i).2.2

/-- steps outside the queue leave the threads in the queue alone -/
theorem step_ring_pc {c : Cfg} {f : St} {t : Tid} (ch : Ch) (hq : inQueue (f.pc t) = false)
    (h1 : ∀ e, f.pc t ≠ .put e) (h2 : ∀ k, f.pc t ≠ .get k) (h3 : f.pc t ≠ .wSize) : (step c f t ch).ring.pc = f.ring.pc := by
  cases hp : f.pc t with
  | putIn e => rw [hp] at hq; cases hq
  | getIn e => rw [hp] at hq; cases hq
  | sizeIn => rw [hp] at hq; cases hq
  | put e => exact absurd hp (h1 e)
  | get k => exact absurd hp (h2 k)
  | wSize => exact absurd hp h3
  | release => unfold step; simp only [hp]; exact drop_pc _ _
  | unref k e => unfold step; simp only [hp]; exact drop_pc _ _
  | sUnref k => unfold step; simp only [hp]; exact drop_pc _ _
  | write k e => cases e <;> (unfold step; simp only [hp] <;> (repeat' split) <;> rfl)
  | _ => unfold step; simp only [hp] <;> (repeat' split) <;> rfl

/-- entering the queue -/
theorem enter_queue {c : Cfg} {f : St} {a : SinkConc.St} {o : Bool} (h : Rel c f a) (hr : SinkConc.Reach c o a) (hq : Quiet f) (t : Tid) (ch : Ch)
    (hp : (∃ e, f.pc t = .put e) ∨ (∃ k, f.pc t = .get k) ∨ f.pc t = .wSize) :
    Rel c (step c f t ch) a ∧ Quiet (step c f t ch) := by
  have hs : shown f t ch = false := by
    unfold shown
    rcases hp with ⟨e, hp⟩ | ⟨k, hp⟩ | hp <;> rw [hp]
  have h1 := rel_step h hr t ch
  rw [hs] at h1
  refine ⟨h1, fun u => ?_⟩
  by_cases hu : u = t
  · subst hu
    obtain ⟨_, base, hR⟩ := id h
    have hidle : f.ring.pc u = .idle := by
      rcases hp with ⟨e, hp⟩ | ⟨k, hp⟩ | hp <;> exact not_inQueue (hR.pcs u) (by rw [hp]; rfl)
    rcases hp with ⟨e, hp⟩ | ⟨k, hp⟩ | hp
    · unfold step; simp only [hp]; show inCS ((Ring.call f.ring u _).pc u) = false; unfold Ring.call; simp only [hidle]; simp [upd, inCS]
    · unfold step; simp only [hp]; show inCS ((Ring.call f.ring u _).pc u) = false; unfold Ring.call; simp only [hidle]; simp [upd, inCS]
    · unfold step; simp only [hp]; show inCS ((Ring.call f.ring u _).pc u) = false; unfold Ring.call; simp only [hidle]; simp [upd, inCS]
  · have : (step c f t ch).ring.pc u = f.ring.pc u := by
      rcases hp with ⟨e, hp⟩ | ⟨k, hp⟩ | hp
      · unfold step; simp only [hp]; exact call_other _ _ hu
      · unfold step; simp only [hp]; exact call_other _ _ hu
      · unfold step; simp only [hp]; exact call_other _ _ hu
    rw [this]; exact hq u

theorem idle_not_cs : inCS (.idle : Ring.PC Event) = false := rfl

/-- running through the queue keeps the lock free -/
theorem through {c : Cfg} {o : Bool} {f : St} {a : SinkConc.St} (h : Rel c f a) (hr : SinkConc.Reach c o a) (hq : Quiet f) (t : Tid) (ch : Ch)
    (hin : inQueue (f.pc t) = true) (hc : Ring.Clear f.ring t) :
    ∃ f', Steps c f f' ∧ Rel c f' (if pending (f.ring.pc t) then SinkConc.step c a t ch else a) ∧ Quiet f' ∧ f'.ring.pc t = .idle := by
  obtain ⟨f', h1, h2, h3, h4⟩ := run_queue (o := o) t ch _ f a h hr hin hc (Nat.le_refl _)
  refine ⟨f', h1, h2, fun u => ?_, h3⟩
  by_cases hu : u = t
  · subst hu; rw [h3]; rfl
  · rw [h4 u hu]; exact hq u

/-- a thread that is inside the queue with nothing decided, while nobody holds the lock, is about to take the lock -/
theorem spin_put {c : Cfg} {f : St} {a : SinkConc.St} (h : Rel c f a) (hq : Quiet f) {t : Tid} {e : Event}
    (ha : a.pc t = .put e) : (f.pc t = .put e) ∨ (f.pc t = .putIn e ∧ f.ring.pc t = .putSpin e) := by
  obtain ⟨_, base, hR⟩ := h
  have hpc := hR.pcs t
  have hk := hR.inv.pcs t
  have hcs := hq t
  rw [ha] at hpc
  cases hp : f.pc t with
  | putIn e' =>
    rw [hp] at hpc
    obtain ⟨_, ⟨h1, h2⟩ | ⟨_, h2⟩ | ⟨_, _, _, h2, _⟩⟩ := hpc
    · have : e = e' := by injection h2
      subst this
      right
      rcases phase_put_cases h1 with hrp | hrp | hrp | hrp | ⟨k, hrp⟩ | ⟨k, hrp⟩ | ⟨x, hrp, hx⟩
      · exact ⟨rfl, hrp⟩
      · rw [hrp] at hcs; cases hcs
      · rw [hrp] at hcs; cases hcs
      · rw [hrp] at hcs; cases hcs
      · rw [hrp] at hcs; cases hcs
      · rw [hrp] at hcs; cases hcs
      · have : Ring.isObs x = true := by rcases hrp with hrp | hrp <;> (rw [hrp] at hk; exact hk)
        rw [hx] at this; cases this
    · cases h2
    · cases h2
  | getIn k =>
    rw [hp] at hpc
    obtain ⟨_, ⟨_, h2⟩ | ⟨_, h2⟩ | ⟨_, _, _, h2⟩⟩ := hpc
    · cases h2
    · unfold SinkConc.nothing at h2; split at h2 <;> cases h2
    · unfold SinkConc.taking at h2; split at h2 <;> cases h2
  | sizeIn =>
    rw [hp] at hpc
    obtain ⟨_, ⟨_, h2⟩ | ⟨n, _, h2⟩⟩ := hpc
    · cases h2
    · unfold sized at h2; split at h2 <;> cases h2
  | count => rw [hp] at hpc; obtain ⟨_, r, n, _, _, h3, _⟩ := hpc; cases h3
  | release => rw [hp] at hpc; obtain ⟨_, r, n, _, _, h3, _⟩ := hpc; cases h3
  | uncount k' => rw [hp] at hpc; obtain ⟨_, r, _, _, h3⟩ := hpc; cases h3
  | unref k' e => rw [hp] at hpc; obtain ⟨_, r, _, _, h3⟩ := hpc; cases h3
  | sCall k' => rw [hp] at hpc; obtain ⟨_, r, _, _, h3⟩ := hpc; cases h3
  | sUncount k' => rw [hp] at hpc; obtain ⟨_, r, _, _, h3⟩ := hpc; cases h3
  | sUnref k' => rw [hp] at hpc; obtain ⟨_, r, _, _, h3⟩ := hpc; cases h3
  | put e' => rw [hp] at hpc; have := (hpc.of_simple rfl).2.2; injection this with this; subst this; exact Or.inl rfl
  | _ => rw [hp] at hpc; have := (hpc.of_simple rfl).2.2; cases this

theorem spin_get {c : Cfg} {f : St} {a : SinkConc.St} (h : Rel c f a) (hq : Quiet f) {t : Tid} {k : Ret}
    (ha : a.pc t = .get k) : (f.pc t = .get k) ∨ (f.pc t = .getIn k ∧ f.ring.pc t = .getSpin) := by
  obtain ⟨_, base, hR⟩ := h
  have hpc := hR.pcs t
  have hk := hR.inv.pcs t
  have hcs := hq t
  rw [ha] at hpc
  cases hp : f.pc t with
  | getIn k' =>
    rw [hp] at hpc
    obtain ⟨_, ⟨h1, h2⟩ | ⟨_, h2⟩ | ⟨_, _, _, h2⟩⟩ := hpc
    · have : k = k' := by injection h2
      subst this
      right
      rcases phase_get_cases h1 with hrp | hrp | hrp | hrp | ⟨i, hrp⟩ | ⟨i, hrp⟩ | ⟨x, hrp, hx⟩
      · exact ⟨rfl, hrp⟩
      · rw [hrp] at hcs; cases hcs
      · rw [hrp] at hcs; cases hcs
      · rw [hrp] at hcs; cases hcs
      · rw [hrp] at hcs; cases hcs
      · rw [hrp] at hcs; cases hcs
      · have : Ring.isObs x = true := by rcases hrp with hrp | hrp <;> (rw [hrp] at hk; exact hk)
        rw [hx] at this; cases this
    · unfold SinkConc.nothing at h2; split at h2 <;> cases h2
    · unfold SinkConc.taking at h2; split at h2 <;> cases h2
  | putIn e' =>
    rw [hp] at hpc
    obtain ⟨_, ⟨_, h2⟩ | ⟨_, h2⟩ | ⟨_, _, _, h2, _⟩⟩ := hpc <;> cases h2
  | sizeIn =>
    rw [hp] at hpc
    obtain ⟨_, ⟨_, h2⟩ | ⟨n, _, h2⟩⟩ := hpc
    · cases h2
    · unfold sized at h2; split at h2 <;> cases h2
  | count => rw [hp] at hpc; obtain ⟨_, r, n, _, _, h3, _⟩ := hpc; cases h3
  | release => rw [hp] at hpc; obtain ⟨_, r, n, _, _, h3, _⟩ := hpc; cases h3
  | uncount k' => rw [hp] at hpc; obtain ⟨_, r, _, _, h3⟩ := hpc; cases h3
  | unref k' e => rw [hp] at hpc; obtain ⟨_, r, _, _, h3⟩ := hpc; cases h3
  | sCall k' => rw [hp] at hpc; obtain ⟨_, r, _, _, h3⟩ := hpc; cases h3
  | sUncount k' => rw [hp] at hpc; obtain ⟨_, r, _, _, h3⟩ := hpc; cases h3
  | sUnref k' => rw [hp] at hpc; obtain ⟨_, r, _, _, h3⟩ := hpc; cases h3
  | get k' => rw [hp] at hpc; have := (hpc.of_simple rfl).2.2; injection this with this; subst this; exact Or.inl rfl
  | _ => rw [hp] at hpc; have := (hpc.of_simple rfl).2.2; cases this

/-- **Every step of `SinkConc` can be carried out** when nobody holds the lock of the queue. -/
theorem realise_step {c : Cfg} {o : Bool} (hcap : 0 < c.capacity) {f : St} {a : SinkConc.St} (hf : Reach c o f) (h : Rel c f a)
    (hr : SinkConc.Reach c o a) (hq : Quiet f) (t : Tid) (ch : Ch) :
    ∃ f', Steps c f f' ∧ Rel c f' (SinkConc.step c a t ch) ∧ Quiet f' := by
  obtain ⟨he, base, hR⟩ := id h
  have hpc := hR.pcs t
  have hb := behind_reach hcap hf
  -- nothing to do
  have stay : SinkConc.step c a t ch = a → ∃ f', Steps c f f' ∧ Rel c f' (SinkConc.step c a t ch) ∧ Quiet f' := by
    intro hs; rw [hs]; exact ⟨f, .refl f, h, hq⟩
  -- one step, outside the queue
  have one : inQueue (f.pc t) = false → (∀ e, f.pc t ≠ .put e) → (∀ k, f.pc t ≠ .get k) → f.pc t ≠ .wSize → shown f t ch = true →
      ∃ f', Steps c f f' ∧ Rel c f' (SinkConc.step c a t ch) ∧ Quiet f' := by
    intro h1 h2 h3 h4 hs
    have hrel := rel_step h hr t ch
    rw [hs, if_pos rfl] at hrel
    exact ⟨_, .more t ch (.refl _), hrel, quiet_of_ring (c := c) hq (step_ring_pc ch h1 h2 h3 h4)⟩
  -- a put not yet decided
  have hput : ∀ (f : St) (e : Event), Reach c o f → Rel c f a → Quiet f → f.pc t = .putIn e → f.ring.pc t = .putSpin e → a.pc t = .put e →
      ∃ f', Steps c f f' ∧ Rel c f' (SinkConc.step c a t ch) ∧ Quiet f' := by
    intro f e hf h hq hp hrp hap
    by_cases hst : a.held = true ∧ a.queued + 1 = c.capacity
    · have : SinkConc.step c a t ch = a := by
        unfold SinkConc.step; simp only [hap]
        rw [if_neg (by omega), if_pos hst]
      rw [this]; exact ⟨f, .refl f, h, hq⟩
    · obtain ⟨f', h1, h2, h3, _⟩ := through h hr hq t ch (by rw [hp]; rfl) (clear_put h hr hq (behind_reach hcap hf) hrp hst)
      rw [hrp] at h2
      exact ⟨f', h1, h2, h3⟩
  have hget : ∀ (f : St) (k : Ret), Reach c o f → Rel c f a → Quiet f → f.pc t = .getIn k → f.ring.pc t = .getSpin → a.pc t = .get k →
      ∃ f', Steps c f f' ∧ Rel c f' (SinkConc.step c a t ch) ∧ Quiet f' := by
    intro f k hf h hq hp hrp hap
    by_cases hst : a.taken < a.put.length → a.phase a.taken = .ready
    · obtain ⟨f', h1, h2, h3, _⟩ := through h hr hq t ch (by rw [hp]; rfl) (clear_get h hr hq hrp hst)
      rw [hrp] at h2
      exact ⟨f', h1, h2, h3⟩
    · have hlt : a.taken < a.put.length := by
        apply Classical.byContradiction; intro hn; exact hst (fun hx => absurd hx hn)
      have hne : ¬ a.phase a.taken = .ready := fun hx => hst (fun _ => hx)
      have : SinkConc.step c a t ch = a := by
        unfold SinkConc.step; simp only [hap]; rw [List.getElem?_eq_getElem hlt]; simp only; rw [if_neg hne]
      rw [this]; exact ⟨f, .refl f, h, hq⟩
  have hsize : ∀ (f : St), Rel c f a → Quiet f → f.pc t = .sizeIn → f.ring.pc t = .obsSpin .size →
      ∃ f', Steps c f f' ∧ Rel c f' (SinkConc.step c a t ch) ∧ Quiet f' := by
    intro f h hq hp hrp
    obtain ⟨_, base, hR⟩ := id h
    obtain ⟨f', h1, h2, h3, _⟩ := through h hr hq t ch (by rw [hp]; rfl) ⟨Or.inr (quiet_free hR hq), by rw [hrp]; trivial⟩
    rw [hrp] at h2
    exact ⟨f', h1, h2, h3⟩
  cases hp : f.pc t with
  | idle => rw [hp] at hpc; have ha := (hpc.of_simple rfl).2.2; exact stay (by unfold SinkConc.step; simp only [ha])
  | wExit => rw [hp] at hpc; have ha := (hpc.of_simple rfl).2.2; exact stay (by unfold SinkConc.step; simp only [ha])
  | dead => rw [hp] at hpc; have ha := (hpc.of_simple rfl).2.2; exact stay (by unfold SinkConc.step; simp only [ha])
  | wWait =>
    cases hc : ch.timeout with
    | true => exact one (by rw [hp]; rfl) (by simp [hp]) (by simp [hp]) (by simp [hp]) (by unfold shown; simp only [hp]; exact hc)
    | false =>
      rw [hp] at hpc; have ha := (hpc.of_simple rfl).2.2
      refine stay ?_
      have hc' : ch.timeout = false := hc
      unfold SinkConc.step; simp only [ha]; rw [hc']; rfl
  | dJoin =>
    by_cases hc : f.pc workerTid = .wExit
    · exact one (by rw [hp]; rfl) (by simp [hp]) (by simp [hp]) (by simp [hp]) (by unfold shown; simp only [hp]; exact decide_eq_true hc)
    · rw [hp] at hpc; have ha := (hpc.of_simple rfl).2.2
      refine stay ?_
      have hw : a.pc workerTid ≠ .wExit := by
        intro hw
        have hpw := hR.pcs workerTid
        have hcs := hq workerTid
        rw [hw] at hpw
        cases hpx : f.pc workerTid with
        | putIn e' =>
          rw [hpx] at hpw
          obtain ⟨_, ⟨_, h2⟩ | ⟨_, h2⟩ | ⟨_, _, _, h2, _⟩⟩ := hpw <;> cases h2
        | getIn k =>
          rw [hpx] at hpw
          obtain ⟨_, ⟨_, h2⟩ | ⟨_, h2⟩ | ⟨_, _, _, h2⟩⟩ := hpw
          · cases h2
          · unfold SinkConc.nothing at h2; split at h2 <;> cases h2
          · unfold SinkConc.taking at h2; split at h2 <;> cases h2
        | sizeIn =>
          rw [hpx] at hpw
          obtain ⟨_, ⟨_, h2⟩ | ⟨n, h1, h2⟩⟩ := hpw
          · cases h2
          · rw [h1] at hcs; cases hcs
        | count => rw [hpx] at hpw; obtain ⟨_, r, n, _, _, h3, _⟩ := hpw; cases h3
        | release => rw [hpx] at hpw; obtain ⟨_, r, n, _, _, h3, _⟩ := hpw; cases h3
        | uncount k' => rw [hpx] at hpw; obtain ⟨_, r, _, _, h3⟩ := hpw; cases h3
        | unref k' e => rw [hpx] at hpw; obtain ⟨_, r, _, _, h3⟩ := hpw; cases h3
        | sCall k' => rw [hpx] at hpw; obtain ⟨_, r, _, _, h3⟩ := hpw; cases h3
        | sUncount k' => rw [hpx] at hpw; obtain ⟨_, r, _, _, h3⟩ := hpw; cases h3
        | sUnref k' => rw [hpx] at hpw; obtain ⟨_, r, _, _, h3⟩ := hpw; cases h3
        | wExit => exact hc hpx
        | _ => rw [hpx] at hpw; have := (hpw.of_simple rfl).2.2; cases this
      unfold SinkConc.step; simp only [ha]; rw [if_neg hw]
  | put e =>
    rw [hp] at hpc
    obtain ⟨hi, _, ha⟩ := hpc.of_simple rfl
    obtain ⟨h1, hq1⟩ := enter_queue h hr hq t ch (Or.inl ⟨e, hp⟩)
    obtain ⟨f', s1, s2, s3⟩ := hput _ e (.next hf (.step f t ch)) h1 hq1 (by unfold step; simp only [hp]; simp [setPc, upd])
      (by unfold step; simp only [hp]; show (Ring.call f.ring t _).pc t = _; unfold Ring.call; simp only [hi]; simp [upd]) ha
    exact ⟨f', .more t ch s1, s2, s3⟩
  | get k =>
    rw [hp] at hpc
    obtain ⟨hi, _, ha⟩ := hpc.of_simple rfl
    obtain ⟨h1, hq1⟩ := enter_queue h hr hq t ch (Or.inr (Or.inl ⟨k, hp⟩))
    obtain ⟨f', s1, s2, s3⟩ := hget _ k (.next hf (.step f t ch)) h1 hq1 (by unfold step; simp only [hp]; simp [setPc, upd])
      (by unfold step; simp only [hp]; show (Ring.call f.ring t _).pc t = _; unfold Ring.call; simp only [hi]; simp [upd]) ha
    exact ⟨f', .more t ch s1, s2, s3⟩
  | wSize =>
    rw [hp] at hpc
    obtain ⟨hi, _, ha⟩ := hpc.of_simple rfl
    obtain ⟨h1, hq1⟩ := enter_queue h hr hq t ch (Or.inr (Or.inr hp))
    obtain ⟨f', s1, s2, s3⟩ := hsize _ h1 hq1 (by unfold step; simp only [hp]; simp [setPc, upd])
      (by unfold step; simp only [hp]; show (Ring.call f.ring t _).pc t = _; unfold Ring.call; simp only [hi]; simp [upd])
    exact ⟨f', .more t ch s1, s2, s3⟩
  | putIn e =>
    rw [hp] at hpc
    obtain ⟨_, ⟨h1, h2⟩ | ⟨h1, h2⟩ | ⟨k, n, h1, h2, h3⟩⟩ := hpc
    · rcases spin_put h hq h2 with hx | hx
      · rw [hp] at hx; cases hx
      · exact hput f e hf h hq hp hx.2 h2
    · have := hq t; rw [h1] at this; cases this
    · -- the element is counted but not constructed: finish the construction, then the step
      have hnp : pending (f.ring.pc t) = false := by
        cases hx : f.ring.pc t <;> rw [hx] at h1 <;> first | rfl | (cases h1; done)
      have hcl : Ring.Clear f.ring t := by
        refine ⟨Or.inr (quiet_free hR hq), ?_⟩
        cases hx : f.ring.pc t <;> rw [hx] at h1 <;> first | trivial | (cases h1; done)
      obtain ⟨f1, s1, s2, s3, s4⟩ := through h hr hq t ch (by rw [hp]; rfl) hcl
      rw [hnp] at s2
      have s2 : Rel c f1 a := s2
      obtain ⟨_, base1, hR1⟩ := id s2
      have hpc1 := hR1.pcs t
      rw [h2, s4] at hpc1
      have hf1 : f1.pc t = .count := by
        cases hx : f1.pc t with
        | count => rfl
        | putIn e' =>
          rw [hx] at hpc1
          obtain ⟨_, ⟨_, h2⟩ | ⟨_, h2⟩ | ⟨_, _, h2, _, _⟩⟩ := hpc1 <;> cases h2
        | getIn k =>
          rw [hx] at hpc1
          obtain ⟨_, ⟨_, h2⟩ | ⟨_, h2⟩ | ⟨_, _, h2, _⟩⟩ := hpc1
          · cases h2
          · unfold SinkConc.nothing at h2; split at h2 <;> cases h2
          · cases h2
        | sizeIn =>
          rw [hx] at hpc1
          obtain ⟨_, ⟨_, h2⟩ | ⟨n, h1, h2⟩⟩ := hpc1
          · cases h2
          · cases h1
        | release => rw [hx] at hpc1; obtain ⟨_, r, n, _, _, h3, _⟩ := hpc1; cases h3
        | uncount k' => rw [hx] at hpc1; obtain ⟨_, r, _, _, h3⟩ := hpc1; cases h3
        | unref k' e => rw [hx] at hpc1; obtain ⟨_, r, _, _, h3⟩ := hpc1; cases h3
        | sCall k' => rw [hx] at hpc1; obtain ⟨_, r, _, _, h3⟩ := hpc1; cases h3
        | sUncount k' => rw [hx] at hpc1; obtain ⟨_, r, _, _, h3⟩ := hpc1; cases h3
        | sUnref k' => rw [hx] at hpc1; obtain ⟨_, r, _, _, h3⟩ := hpc1; cases h3
        | _ => rw [hx] at hpc1; have := (hpc1.of_simple rfl).2.2; cases this
      have hrel := rel_step s2 hr t ch
      have hsh : shown f1 t ch = true := by unfold shown; simp only [hf1]
      rw [hsh, if_pos rfl] at hrel
      exact ⟨_, s1.trans (.more t ch (.refl _)), hrel,
        quiet_of_ring (c := c) s3 (step_ring_pc ch (by rw [hf1]; rfl) (by simp [hf1]) (by simp [hf1]) (by simp [hf1]))⟩
  | getIn k =>
    rw [hp] at hpc
    obtain ⟨_, ⟨h1, h2⟩ | ⟨h1, h2⟩ | ⟨i, v, h1, h2⟩⟩ := hpc
    · rcases spin_get h hq h2 with hx | hx
      · rw [hp] at hx; cases hx
      · exact hget f k hf h hq hp hx.2 h2
    · have := hq t; rw [h1] at this; cases this
    · have := hq t; rw [h1] at this; cases this
  | sizeIn =>
    rw [hp] at hpc
    obtain ⟨_, ⟨h1, h2⟩ | ⟨n, h1, h2⟩⟩ := hpc
    · rcases phase_size_cases h1 with hx | hx
      · exact hsize f h hq hp hx
      · have := hq t; rw [hx] at this; cases this
    · have := hq t; rw [h1] at this; cases this
  | _ => exact one (by rw [hp]; rfl) (by simp [hp]) (by simp [hp]) (by simp [hp]) (by unfold shown; simp only [hp])

theorem realise_steps {c : Cfg} {o : Bool} (hcap : 0 < c.capacity) {a b : SinkConc.St} (hs : SinkConc.Steps c a b) :
    ∀ {f : St}, Reach c o f → Rel c f a → SinkConc.Reach c o a → Quiet f → ∃ f', Steps c f f' ∧ Rel c f' b ∧ Quiet f' := by
  induction hs with
  | refl => intro f _ h _ hq; exact ⟨f, .refl f, h, hq⟩
  | more t ch _ ih =>
    intro f hf h hr hq
    obtain ⟨f1, h1, h2, h3⟩ := realise_step hcap hf h hr hq t ch
    obtain ⟨f2, h4, h5, h6⟩ := ih (h1.reach hf) h2 (.next hr (.step _ t ch)) h3
    exact ⟨f2, h1.trans h4, h5, h6⟩

/-- a thread that is outside every function there is outside every function here -/
theorem rel_simple {c : Cfg} {f : St} {a : SinkConc.St} (h : Rel c f a) (hq : Quiet f) {t : Tid} :
    (a.pc t = .idle → f.pc t = .idle) ∧ (a.pc t = .dead → f.pc t = .dead) := by
  obtain ⟨_, base, hR⟩ := h
  have hpc := hR.pcs t
  have hcs := hq t
  refine ⟨fun ha => ?_, fun ha => ?_⟩ <;> rw [ha] at hpc <;> cases hx : f.pc t <;> rw [hx] at hpc <;> first
    | rfl
    | (have := (hpc.of_simple rfl).2.2; cases this; done)
    | (obtain ⟨_, ⟨_, h2⟩ | ⟨_, h2⟩ | ⟨_, _, _, h2, _⟩⟩ := hpc <;> cases h2; done)
    | (obtain ⟨_, r, n, _, _, h3, _⟩ := hpc; cases h3; done)
    | (obtain ⟨_, r, _, _, h3⟩ := hpc; cases h3; done)
    | (obtain ⟨_, ⟨_, h2⟩ | ⟨n, _, h2⟩⟩ := hpc
       · cases h2
       · unfold sized at h2; split at h2 <;> cases h2)
    | (obtain ⟨_, ⟨_, h2⟩ | ⟨_, h2⟩ | ⟨_, _, _, h2⟩⟩ := hpc
       · cases h2
       · unfold SinkConc.nothing at h2; split at h2 <;> cases h2
       · unfold SinkConc.taking at h2; split at h2 <;> cases h2)

/-- **Converse of the refinement**: every reachable state of the sink on an atomic queue corresponds to a reachable state of the sink on
the real one. -/
theorem realises {c : Cfg} {o : Bool} (hcap : 0 < c.capacity) {a : SinkConc.St} (ha : SinkConc.Reach c o a) :
    ∃ f, Reach c o f ∧ Rel c f a ∧ Quiet f := by
  induction ha with
  | init =>
    refine ⟨init c o, .init, ⟨rfl, 0, Ring.inv_init hcap, rfl, rfl, fun t => ?_⟩, fun t => rfl⟩
    refine PCR.simple_intro rfl rfl ?_
    show simple (if t = workerTid then (if c.latency0 || !o then PC.wExit else .wWait) else .idle) =
      some (if t = workerTid then (if c.latency0 || !o then SinkConc.PC.wExit else .wWait) else .idle)
    split
    · split <;> rfl
    · rfl
  | @next a a' har he ih =>
    obtain ⟨f, hf, h, hq⟩ := ih
    cases he with
    | step t ch =>
      obtain ⟨f', h1, h2, h3⟩ := realise_step hcap hf h har hq t ch
      exact ⟨f', h1.reach hf, h2, h3⟩
    | call t ht hi hd call =>
      have hidle := (rel_simple h hq (t := t)).1 hi
      obtain ⟨he, base, hR⟩ := h
      have hd' : f.owner = none := by rw [he] at hd; exact hd
      refine ⟨_, .next hf (.call f t ht hidle hd' call), ?_, hq⟩
      have hs : SinkFull.simple (f.pc t) = some .idle := by rw [hidle]; rfl
      cases call with
      | push e => exact ⟨by rw [he]; rfl, base, hR.simple t f (.put e) _ rfl rfl rfl hs rfl⟩
      | flush => exact ⟨by rw [he]; rfl, base, hR.simple t f (.enter .done) _ rfl rfl rfl hs rfl⟩
      | asyncFlush => exact ⟨by rw [he]; rfl, base, hR.simple t f .async _ rfl rfl rfl hs rfl⟩
      | rotate => exact ⟨by rw [he]; rfl, base, hR.simple t f .rotate _ rfl rfl rfl hs rfl⟩
    | destroy t ht hd hi =>
      have hidle : ∀ u, u ≠ workerTid → f.pc u = .idle := fun u hu => (rel_simple h hq (t := u)).1 (hi u hu)
      obtain ⟨he, base, hR⟩ := h
      have hd' : f.owner = none := by rw [he] at hd; exact hd
      refine ⟨_, .next hf (.destroy f t ht hd' hidle), ?_, hq⟩
      have hs : SinkFull.simple (f.pc t) = some .idle := by rw [hidle t ht]; rfl
      exact ⟨by rw [he]; rfl, base, hR.simple t { f with owner := some t } .dStart _ rfl rfl rfl hs rfl⟩

theorem step_owner (c : Cfg) (s : St) (t : Tid) (ch : Ch) : (step c s t ch).owner = s.owner := by
  cases hp : s.pc t with
  | write k e => cases e <;> (unfold step; simp only [hp] <;> (repeat' split) <;> rfl)
  | _ => unfold step; simp only [hp] <;> (repeat' split) <;> rfl

/-- whatever `SinkConc` can still do from the corresponding state can be done here -/
theorem lift_steps {c : Cfg} {o : Bool} (hcap : 0 < c.capacity) {f : St} (hf : Reach c o f) {P : SinkConc.St → Prop}
    (hP : ∀ a, SinkConc.Reach c o a → a.owner = f.owner → ∃ b, SinkConc.Steps c a b ∧ P b) :
    ∃ f', Steps c f f' ∧ ∃ b, Rel c f' b ∧ Quiet f' ∧ P b := by
  obtain ⟨a0, hr0, h0⟩ := rel_refines hcap hf
  obtain ⟨f1, s1, q1⟩ := quieten h0 hr0
  have hf1 := s1.reach hf
  obtain ⟨a1, hr1, h1⟩ := rel_refines hcap hf1
  have hown : f1.owner = f.owner := by
    clear hf1 hr1 h1 q1 h0 hr0 hP hf
    induction s1 with
    | refl => rfl
    | @more s s' t ch _ ih =>
      rw [ih, step_owner]
  obtain ⟨b, hb, hPb⟩ := hP a1 hr1 (by rw [h1.1]; exact hown)
  obtain ⟨f2, s2, h2, q2⟩ := realise_steps hcap hb hf1 h1 hr1 q1
  exact ⟨f2, s1.trans s2, b, h2, q2, hPb⟩

end SinkFull
end Soralog
