import Verif.Spec.Fair
import Verif.Proofs.SinkFair
import Verif.Proofs.SinkFullLive
import Verif.Proofs.RingFair
import Verif.Proofs.RaceSink
/-! # Endless fair executions of a sink on the real queue

An endless execution of the sink on the real queue is turned into one of the sink on an atomic queue.  A thread that takes the lock and
finds the slot in use corresponds to a thread that waits there too. -/
namespace Soralog
namespace SinkFull
open SinkConc (Cfg Ret Ch Call workerTid)
open Ring (w slotOf building inCS)

/-- a slot in use, seen by a thread that holds the lock and has none itself -/
theorem used_slot_cs {c : Cfg} {f : St} {put : List Event} {taken : Nat} {apc : Tid → SinkConc.PC} {base : Nat}
    (h : R c f put taken apc base) {t : Tid} (ht : inCS (f.ring.pc t) = true) (hs : slotOf (f.ring.pc t) = none)
    {k : Nat} (hk : f.ring.buf.nodeBusy k = true) :
    (∃ u n, (apc u = .count n ∨ apc u = .release n) ∧ At c.capacity put taken base n k) ∨
    (∃ r ∈ f.ring.refs, r.fromGet = true ∧ r.slot = k ∧ (apc r.owner).reading = true) := by
  rcases (h.inv.owned k).1 hk with ⟨u, hu⟩ | ⟨r, hr, hs⟩
  · left
    have hne : inCS (f.ring.pc u) = false := by
      cases e : inCS (f.ring.pc u)
      · rfl
      · have := h.inv.excl u t e ht
        subst this; rw [hs] at hu; cases hu
    obtain ⟨v, hv⟩ := quiet_slot hne hu
    obtain ⟨n, h1, h2⟩ := building_at h hv
    exact ⟨u, n, Or.inl h1, h2⟩
  · obtain ⟨_, ⟨h1, n, h2, h3⟩ | ⟨h1, h2⟩⟩ := ref_owner h hr
    · left; rw [hs] at h3; exact ⟨r.owner, n, h2, h3⟩
    · right; exact ⟨r, hr, h1, hs, h2⟩

theorem cs_others {c : Cfg} {f : St} {put : List Event} {taken : Nat} {apc : Tid → SinkConc.PC} {base : Nat}
    (h : R c f put taken apc base) {t : Tid} (ht : inCS (f.ring.pc t) = true) {u : Tid} (hu : u ≠ t) : inCS (f.ring.pc u) = false := by
  cases e : inCS (f.ring.pc u)
  · rfl
  · exact absurd (h.inv.excl u t e ht) hu

theorem put_waits {c : Cfg} {o : Bool} {f : St} {a : SinkConc.St} (h : Rel c f a) (hr : SinkConc.Reach c o a)
    (hb : Behind f.ring) {t : Tid} {e : Event} (hp : f.ring.pc t = .putCapture e) (hn : f.ring.buf.nodeBusy f.ring.buf.pushIdx = true) :
    a.queued ≠ c.capacity ∧ a.held = true ∧ a.queued + 1 = c.capacity := by
  obtain ⟨ha, base, hR⟩ := h
  have hcs : inCS (f.ring.pc t) = true := by rw [hp]; rfl
  have hpush := hR.inv.pushI (fun u => by
    by_cases hu : u = t
    · rw [hu, hp]; rfl
    · have := cs_others hR hcs hu; cases hx : f.ring.pc u <;> rw [hx] at this <;> first | rfl | cases this)
  have hpop := hR.inv.popI (fun u => by
    by_cases hu : u = t
    · rw [hu, hp]; rfl
    · have := cs_others hR hcs hu; cases hx : f.ring.pc u <;> rw [hx] at this <;> first | rfl | cases this)
  have hcap := hR.inv.capEq
  have hbl := hR.inv.baseLt
  have hlen := hR.inv.len
  rw [List.length_drop] at hlen
  have hk := hR.inv.pcs t
  rw [hp] at hk
  have hlt : f.ring.buf.size < f.ring.buf.capacity := hk
  have hq' : a.queued = f.ring.buf.size := hlen
  refine ⟨by omega, ?_⟩
  rcases used_slot_cs hR hcs (by rw [hp]; rfl) hn with ⟨u, n, _, hat⟩ | ⟨r, hrm, hg, hs, hread⟩
  · have h1 := hat.slot
    rw [hpush] at h1
    have := Ring.w_inj hbl (by omega) (by have := hat.hi; omega) h1
    have := hat.hi
    have := hat.lo
    omega
  · have hbody := reading_inBody hread
    have hheld : a.held = true := by
      rw [(SinkConc.held_reach hr).body r.owner hbody]; exact hread
    refine ⟨hheld, ?_⟩
    have h1 := hb.refs r hrm hg
    rw [hs, hpush, hpop, hcap, Ring.w_succ hbl (by omega)] at h1
    rw [hq']
    rcases Nat.lt_or_ge (f.ring.buf.size + 1) c.capacity with hlt | hge
    · have := Ring.w_inj (i := f.ring.buf.size + 1) (j := 0) hbl hlt (by omega) (by rw [Ring.w_zero hbl]; exact h1)
      omega
    · omega

theorem get_waits {c : Cfg} {o : Bool} {f : St} {a : SinkConc.St} (h : Rel c f a) (hr : SinkConc.Reach c o a)
    {t : Tid} (hp : f.ring.pc t = .getCapture) (hn : f.ring.buf.nodeBusy f.ring.buf.popIdx = true) :
    a.taken < a.put.length ∧ a.phase a.taken ≠ .ready := by
  obtain ⟨ha, base, hR⟩ := h
  have hcs : inCS (f.ring.pc t) = true := by rw [hp]; rfl
  have hpop := hR.inv.popI (fun u => by
    by_cases hu : u = t
    · rw [hu, hp]; rfl
    · have := cs_others hR hcs hu; cases hx : f.ring.pc u <;> rw [hx] at this <;> first | rfl | cases this)
  have hbl := hR.inv.baseLt
  have hlen := hR.inv.len
  rw [List.length_drop] at hlen
  have hk := hR.inv.pcs t
  rw [hp] at hk
  have hlt : 0 < f.ring.buf.size := hk
  refine ⟨by omega, fun hrdy => ?_⟩
  have hsz := hR.inv.sizeLe
  rcases used_slot_cs hR hcs (by rw [hp]; rfl) hn with ⟨u, n, hu, hat⟩ | ⟨r, hrm, hg, hs, hread⟩
  · have h1 := hat.slot
    rw [hpop] at h1
    have h2 := Ring.w_inj (i := 0) (j := n - a.taken) hbl (by omega) (by have := hat.hi; omega) (by rw [Ring.w_zero hbl]; exact h1)
    have := hat.lo
    have hn' : n = a.taken := by omega
    subst hn'
    have htk := SinkConc.tick_reach hr
    rcases hu with hu | hu
    · have := (htk.count u _ hu).2.2; rw [hrdy] at this; cases this
    · have := (htk.release u _ hu).2.2; rw [hrdy] at this; cases this
  · exact hR.inv.refGet r hrm hg 0 (by omega) (by rw [hs, hpop, Ring.w_zero hbl])

/-- what a thread that holds the lock and has not captured a slot does next -/
theorem tick_mid_cases {cap : Nat} {s : Ring.St Event} {q : List Event} {base : Nat} (hI : Ring.Inv cap s q base) {t : Tid}
    (h : Ring.mid (s.pc t) = true) :
    Ring.past ((Ring.tick s t).pc t) = true ∨ (Ring.mid ((Ring.tick s t).pc t) = true ∧ Ring.rank ((Ring.tick s t).pc t) < Ring.rank (s.pc t)) ∨
    (∃ e, s.pc t = .putCapture e ∧ s.buf.nodeBusy s.buf.pushIdx = true) ∨ (s.pc t = .getCapture ∧ s.buf.nodeBusy s.buf.popIdx = true) := by
  have hk := hI.pcs t
  have hcap := hI.capEq
  have hbl := hI.baseLt
  have hcs : inCS (s.pc t) = true := by
    generalize s.pc t = p at h; cases p <;> simp [Ring.mid] at h <;> rfl
  have hp1 : Ring.isPutCount (s.pc t) = false → s.buf.pushIdx = w cap base s.buf.size := hI.pushEq hcs
  have hp2 : Ring.isGetCount (s.pc t) = false → s.buf.popIdx = base := hI.popEq hcs
  unfold Ring.tick
  generalize hpc : s.pc t = p at h hk hp1 hp2
  cases p <;> simp only [Ring.mid] at h <;> try contradiction
  case putCheck v => dsimp only; split <;> simp [Ring.past, Ring.mid, Ring.rank]
  case getCheck => dsimp only; split <;> simp [Ring.past, Ring.mid, Ring.rank]
  case putCapture v =>
    have hk' : s.buf.size < s.buf.capacity := hk
    have : s.buf.pushIdx < s.buf.capacity := by rw [hp1 rfl, hcap]; exact Ring.w_lt hbl (by omega)
    dsimp only; rw [if_neg (by omega)]
    cases hn : s.buf.nodeBusy s.buf.pushIdx
    · left; rw [if_neg (by simp)]; simp [Ring.past]
    · right; right; left; exact ⟨v, rfl, rfl⟩
  case getCapture =>
    dsimp only; rw [if_neg (by rw [hp2 rfl]; omega)]
    cases hn : s.buf.nodeBusy s.buf.popIdx
    · left; rw [if_neg (by simp)]; simp [Ring.past]
    · right; right; right; exact ⟨rfl, rfl⟩

theorem tick_spin_cases {s : Ring.St Event} {t : Tid} (h : Ring.spinning (s.pc t) = true) :
    (Ring.tick s t).pc t = s.pc t ∨ Ring.past ((Ring.tick s t).pc t) = true ∨ Ring.mid ((Ring.tick s t).pc t) = true := by
  cases hb : s.buf.busy
  · exact .inr (Ring.tick_spin h hb)
  · left
    unfold Ring.tick
    generalize hpc : s.pc t = p at h
    cases p <;> simp only [Ring.spinning] at h <;> try contradiction
    all_goals dsimp only; rw [hb, if_pos rfl]; exact hpc

theorem tick_retry_spins {s : Ring.St Event} {t : Tid} (h : Ring.retrying (s.pc t) = true) : Ring.spinning ((Ring.tick s t).pc t) = true := by
  unfold Ring.tick
  generalize hpc : s.pc t = p at h
  cases p <;> simp only [Ring.retrying] at h <;> try contradiction
  all_goals simp [Ring.spinning]

theorem atLock_iff {p : Ring.PC Event} : AtLock p ↔ Ring.spinning p = true := by
  cases p <;> simp [AtLock, Ring.spinning]

/-! ### one action -/

theorem Does.exec {c : Cfg} {s s' : St} {d : Deed} (h : Does c s d s') : s' = s ∨ Exec c s s' := by
  cases d with
  | rest => exact .inl h
  | call t k => obtain ⟨h1, h2, h3, h4⟩ := h; rw [h4]; exact .inr (.call s t h1 h2 h3 k)
  | step t ch => rw [show s' = step c s t ch from h]; exact .inr (.step s t ch)
  | destroy t => obtain ⟨h1, h2, h3, h4⟩ := h; rw [h4]; exact .inr (.destroy s t h1 h2 h3)

theorem Endless.reach {c : Cfg} {o : Bool} {σ : Nat → Deed} {R : Nat → St} (h : Endless c o σ R) (n : Nat) : Reach c o (R n) := by
  induction n with
  | zero => exact h.start
  | succ n ih =>
    rcases (h.next n).exec with e | e
    · rw [e]; exact ih
    · exact .next ih e

/-- any later part of an endless execution is one too -/
theorem Endless.shift {c : Cfg} {o : Bool} {σ : Nat → Deed} {R : Nat → St} (h : Endless c o σ R) (N : Nat) :
    Endless c o (fun n => σ (N + n)) (fun n => R (N + n)) := by
  refine ⟨h.reach N, fun n => h.next (N + n), fun n t hr => ?_⟩
  obtain ⟨m, ch, h1, h2⟩ := h.fair (N + n) t hr
  exact ⟨m - N, ch, by omega, by rw [show N + (m - N) = m by omega]; exact h2⟩

theorem does_pc_same {c : Cfg} {s s' : St} {d : Deed} (h : Does c s d s') {t : Tid} (hw : s.pc t ≠ .idle) (hd : ∀ ch, d ≠ .step t ch) :
    s'.pc t = s.pc t := by
  cases d with
  | rest => rw [show s' = s from h]
  | call u k =>
    obtain ⟨h1, h2, h3, h4⟩ := h
    rw [h4]; show upd _ _ _ _ = _; rw [upd, if_neg (by intro e; subst e; exact hw h2)]
  | step u ch =>
    rw [show s' = step c s u ch from h]
    exact Race.step_pc_other c s u ch t (by intro e; subst e; exact hd ch rfl)
  | destroy u =>
    obtain ⟨h1, h2, h3, h4⟩ := h
    rw [h4]; show upd _ _ _ _ = _; rw [upd, if_neg (by intro e; subst e; exact hw (h3 t h1))]

theorem does_ring_same {c : Cfg} {s s' : St} {d : Deed} (h : Does c s d s') {t : Tid} (hd : ∀ ch, d ≠ .step t ch) :
    s'.ring.pc t = s.ring.pc t := by
  cases d with
  | rest => rw [show s' = s from h]
  | call u k => obtain ⟨h1, h2, h3, h4⟩ := h; rw [h4]; rfl
  | destroy u => obtain ⟨h1, h2, h3, h4⟩ := h; rw [h4]; rfl
  | step u ch =>
    have hu : t ≠ u := by intro e; subst e; exact hd ch rfl
    rw [show s' = step c s u ch from h]
    rcases step_ring_cases c s u ch with e | ⟨x, e⟩ | ⟨i, e⟩ | ⟨_, e⟩
    · rw [e]
    · rw [e]; exact call_other _ _ hu
    · rw [e, drop_pc]
    · rw [e]; exact tick_other _ hu

/-- the next step of a running thread finds it where it was -/
theorem Endless.first {c : Cfg} {o : Bool} {σ : Nat → Deed} {R : Nat → St} (h : Endless c o σ R) {n : Nat} {t : Tid} (hr : Running ((R n).pc t)) :
    ∃ m ch, n ≤ m ∧ σ m = .step t ch ∧ R (m + 1) = step c (R m) t ch ∧ (R m).pc t = (R n).pc t ∧ (R m).ring.pc t = (R n).ring.pc t := by
  obtain ⟨m, ch, hm, hs⟩ := h.fair n t hr
  have key : ∀ d n, Running ((R n).pc t) → σ (n + d) = .step t ch →
      ∃ m ch, n ≤ m ∧ σ m = .step t ch ∧ R (m + 1) = step c (R m) t ch ∧ (R m).pc t = (R n).pc t ∧ (R m).ring.pc t = (R n).ring.pc t := by
    intro d
    induction d with
    | zero =>
      intro n _ hs
      have := h.next n
      rw [show σ n = .step t ch from hs] at this
      exact ⟨n, ch, Nat.le_refl _, hs, this, rfl, rfl⟩
    | succ d ih =>
      intro n hn hs
      by_cases e : ∃ ch, σ n = .step t ch
      · obtain ⟨ch, e⟩ := e
        have := h.next n
        rw [e] at this
        exact ⟨n, ch, Nat.le_refl _, e, this, rfl, rfl⟩
      · have h1 : (R (n + 1)).pc t = (R n).pc t := does_pc_same (h.next n) hn.1 (fun ch e' => e ⟨ch, e'⟩)
        have h1' : (R (n + 1)).ring.pc t = (R n).ring.pc t := does_ring_same (h.next n) (fun ch e' => e ⟨ch, e'⟩)
        obtain ⟨m, ch, h2, hs', h3, h4, h5⟩ := ih (n + 1) (by rw [h1]; exact hn) (by rw [← hs]; congr 1; omega)
        exact ⟨m, ch, by omega, hs', h3, h4.trans h1, h5.trans h1'⟩
  exact key (m - n) n hr (by rw [show n + (m - n) = m by omega]; exact hs)

/-! ### the corresponding execution -/

/-- what happens in `SinkConc` -/
def absNext (c : Cfg) (f : St) (d : Deed) (a : SinkConc.St) : SinkConc.St :=
  match d with
  | .call t k => SinkConc.setPc a t (SinkConc.firstPC k)
  | .step t ch => if shown f t ch then SinkConc.step c a t ch else a
  | .destroy t => SinkConc.setPc { a with owner := some t } t .dStart
  | .rest => a

open Classical in
/-- and what it is called there: a step of a thread that waits is a step too -/
noncomputable def absDeed (c : Cfg) (f : St) (d : Deed) (a : SinkConc.St) : Deed :=
  match d with
  | .step t ch => if absNext c f (.step t ch) a = SinkConc.step c a t ch then .step t ch else .rest
  | d => d

/-- the states of `SinkConc` along an execution -/
def absRun (c : Cfg) (σ : Nat → Deed) (R : Nat → St) (a : SinkConc.St) : Nat → SinkConc.St
  | 0 => a
  | n + 1 => absNext c (R n) (σ n) (absRun c σ R a n)

theorem rel_idle {c : Cfg} {f : St} {a : SinkConc.St} (h : Rel c f a) {t : Tid} (hi : f.pc t = .idle) : a.pc t = .idle := by
  obtain ⟨_, base, hR⟩ := h
  have := hR.pcs t
  rw [hi] at this
  exact (this.of_simple rfl).2.2

theorem does_rel {c : Cfg} {o : Bool} {f f' : St} {a : SinkConc.St} {d : Deed} (hd : Does c f d f') (h : Rel c f a) (hr : SinkConc.Reach c o a) :
    Rel c f' (absNext c f d a) ∧ SinkConc.Does c a (absDeed c f d a) (absNext c f d a) := by
  cases d with
  | rest => rw [show f' = f from hd]; exact ⟨h, rfl⟩
  | step t ch =>
    rw [show f' = step c f t ch from hd]
    refine ⟨rel_step h hr t ch, ?_⟩
    by_cases e : absNext c f (.step t ch) a = SinkConc.step c a t ch
    · unfold absDeed; simp only [if_pos e]; exact e
    · unfold absDeed; simp only [if_neg e]
      show absNext c f (.step t ch) a = a
      unfold absNext at e ⊢
      dsimp only at e ⊢
      split
      · rename_i hs; rw [if_pos hs] at e; exact absurd rfl e
      · rfl
  | call t k =>
    obtain ⟨h1, h2, h3, h4⟩ := hd
    have hidle := rel_idle h h2
    obtain ⟨he, base, hR⟩ := h
    have ho : a.owner = none := by rw [he]; exact h3
    refine ⟨?_, h1, hidle, ho, rfl⟩
    rw [h4]
    have hs : SinkFull.simple (f.pc t) = some .idle := by rw [h2]; rfl
    cases k with
    | push e => exact ⟨by rw [he]; rfl, base, hR.simple t f (.put e) _ rfl rfl rfl hs rfl⟩
    | flush => exact ⟨by rw [he]; rfl, base, hR.simple t f (.enter .done) _ rfl rfl rfl hs rfl⟩
    | asyncFlush => exact ⟨by rw [he]; rfl, base, hR.simple t f .async _ rfl rfl rfl hs rfl⟩
    | rotate => exact ⟨by rw [he]; rfl, base, hR.simple t f .rotate _ rfl rfl rfl hs rfl⟩
  | destroy t =>
    obtain ⟨h1, h2, h3, h4⟩ := hd
    have hidle : ∀ u, u ≠ workerTid → a.pc u = .idle := fun u hu => rel_idle h (h3 u hu)
    obtain ⟨he, base, hR⟩ := h
    have ho : a.owner = none := by rw [he]; exact h2
    refine ⟨?_, h1, ho, hidle, rfl⟩
    rw [h4]
    have hs : SinkFull.simple (f.pc t) = some .idle := by rw [h3 t h1]; rfl
    exact ⟨by rw [he]; rfl, base, hR.simple t { f with owner := some t } .dStart _ rfl rfl rfl hs rfl⟩

theorem abs_reach {c : Cfg} {o : Bool} {a a' : SinkConc.St} {d : Deed} (h : SinkConc.Does c a d a') (hr : SinkConc.Reach c o a) : SinkConc.Reach c o a' := by
  rcases h.exec with e | e
  · rw [e]; exact hr
  · exact .next hr e

theorem Endless.rel {c : Cfg} {o : Bool} {σ : Nat → Deed} {R : Nat → St} (h : Endless c o σ R) {a : SinkConc.St} (hr : SinkConc.Reach c o a)
    (ha : Rel c (R 0) a) (n : Nat) : Rel c (R n) (absRun c σ R a n) ∧ SinkConc.Reach c o (absRun c σ R a n) := by
  induction n with
  | zero => exact ⟨ha, hr⟩
  | succ n ih =>
    have := does_rel (h.next n) ih.1 ih.2
    exact ⟨this.1, abs_reach this.2 ih.2⟩

/-- steps that `SinkConc` makes too, or that do nothing there -/
def plain : PC → Bool
  | .idle | .wExit | .dead | .put _ | .get _ | .wSize | .putIn _ | .getIn _ | .sizeIn | .dJoin => false
  | _ => true

theorem plain_shown {c : Cfg} {f : St} {a : SinkConc.St} (h : Rel c f a) {t : Tid} (hp : plain (f.pc t) = true) (ch : Ch) :
    shown f t ch = true ∨ SinkConc.step c a t ch = a := by
  unfold shown
  cases hx : f.pc t <;> rw [hx] at hp <;> first | (cases hp; done) | exact .inl rfl | skip
  dsimp only
  cases e : ch.timeout
  · right
    obtain ⟨he, base, hR⟩ := h
    have := hR.pcs t
    rw [hx] at this
    have ha := (this.of_simple rfl).2.2
    unfold SinkConc.step
    rw [ha]
    dsimp only
    rw [he]
    show (if ch.timeout = true then _ else _) = _
    rw [e, if_neg (by simp)]
  · exact .inl rfl

theorem inQueue_ring {c : Cfg} {f : St} {a : SinkConc.St} (h : Rel c f a) {t : Tid} (hq : inQueue (f.pc t) = true) : f.ring.pc t ≠ .idle := by
  obtain ⟨_, base, hR⟩ := h
  have hpc := hR.pcs t
  intro e
  rw [e] at hpc
  cases hp : f.pc t <;> rw [hp] at hq hpc <;> first | (cases hq; done) | skip
  · obtain ⟨_, ⟨h1, _⟩ | ⟨h1, _⟩ | ⟨_, _, h1, _⟩⟩ := hpc <;> cases h1
  · obtain ⟨_, ⟨h1, _⟩ | ⟨h1, _⟩ | ⟨_, _, h1, _⟩⟩ := hpc <;> cases h1
  · obtain ⟨_, ⟨h1, _⟩ | ⟨_, h1, _⟩⟩ := hpc <;> cases h1

/-- where a thread goes on when it returns from the queue -/
theorem step_leaves {c : Cfg} {f : St} {a : SinkConc.St} (h : Rel c f a) {t : Tid} (ch : Ch) (hq : inQueue (f.pc t) = true)
    (hr : (Ring.tick f.ring t).pc t = .idle) : plain ((step c f t ch).pc t) = true ∨ (step c f t ch).pc t = .wExit := by
  obtain ⟨_, base, hR⟩ := h
  have hpc := hR.pcs t
  have ho : outside ((Ring.tick f.ring t).pc t) = true := by rw [hr]; rfl
  cases hp : f.pc t <;> rw [hp] at hq <;> first | (cases hq; done) | skip
  · left; unfold step; simp only [hp]; rw [ho]; simp only [if_true]; split <;> simp [setPc, upd, plain]
  · left; unfold step; simp only [hp]; rw [ho]; simp only [if_true]
    split
    · show plain (upd _ _ _ _) = true
      rw [upd, if_pos rfl]; unfold taking; split <;> rfl
    · show plain (upd _ _ _ _) = true
      rw [upd, if_pos rfl]; unfold nothing; split <;> rfl
  · rw [hp] at hpc
    obtain ⟨_, ⟨hph, _⟩ | ⟨n, hrp, _⟩⟩ := hpc
    · exfalso
      rcases phase_size_cases hph with hrp | hrp
      · unfold Ring.tick at hr; simp only [hrp] at hr; split at hr
        · rw [hrp] at hr; cases hr
        · simp [upd] at hr
      · unfold Ring.tick at hr; simp only [hrp] at hr; simp [upd] at hr
    · unfold step; simp only [hp, hrp]
      show plain (upd _ _ _ _) = true ∨ upd _ _ _ _ = _
      rw [upd, if_pos rfl]
      split
      · exact .inr rfl
      · exact .inl rfl

/-- A thread that is past the point of no return leaves the queue. -/
theorem Endless.getsOut {c : Cfg} {o : Bool} {σ : Nat → Deed} {R : Nat → St} (h : Endless c o σ R) {A : Nat → SinkConc.St}
    (hA : ∀ n, Rel c (R n) (A n)) {t : Tid} : ∀ (g n : Nat), inQueue ((R n).pc t) = true → Ring.past ((R n).ring.pc t) = true →
    Ring.rank ((R n).ring.pc t) ≤ g → ∃ m, n ≤ m ∧ (plain ((R m).pc t) = true ∨ (R m).pc t = .wExit) := by
  intro g
  induction g with
  | zero =>
    intro n hq hp hg
    exfalso
    generalize (R n).ring.pc t = p at hp hg
    cases p <;> simp [Ring.past, Ring.rank] at hp hg
  | succ g ih =>
    intro n hq hp hg
    obtain ⟨m, ch, h1, h2, h3, h4, h5⟩ := h.first (n := n) (t := t) (by
      generalize (R n).pc t = p at hq
      refine ⟨?_, ?_, ?_⟩ <;> (intro e; subst e; cases hq))
    rw [← h4] at hq
    rw [← h5] at hp hg
    obtain ⟨_, base, hR⟩ := hA m
    by_cases hi : (Ring.tick (R m).ring t).pc t = .idle
    · refine ⟨m + 1, by omega, ?_⟩
      rw [h3]; exact step_leaves (hA m) ch hq hi
    · have hq' := step_inQueue (hA m) ch hq hi
      have hrg := step_ring (c := c) ch hq
      rw [← h3] at hq' hrg
      have : Ring.past ((Ring.tick (R m).ring t).pc t) = true ∧ Ring.rank ((Ring.tick (R m).ring t).pc t) < Ring.rank ((R m).ring.pc t) := by
        rcases Ring.tick_past hR.inv hp with ⟨r, hr⟩ | hx
        · exfalso
          apply hi
          exact (Ring.act_ret (a := .step t) hr).2
        · exact hx
      obtain ⟨m', h6, h7⟩ := ih (m + 1) hq' (by rw [hrg]; exact this.1) (by rw [hrg]; omega)
      exact ⟨m', by omega, h7⟩

theorem rel_running {c : Cfg} {f : St} {a : SinkConc.St} (h : Rel c f a) {t : Tid} (hr : SinkConc.Running (a.pc t)) : Running (f.pc t) := by
  obtain ⟨_, base, hR⟩ := h
  have hpc := hR.pcs t
  refine ⟨?_, ?_, ?_⟩ <;> (intro e; rw [e] at hpc; have := (hpc.of_simple rfl).2.2; rw [this] at hr)
  · exact hr.1 rfl
  · exact hr.2.1 rfl
  · exact hr.2.2 rfl

theorem rel_exit {c : Cfg} {f : St} {a : SinkConc.St} (h : Rel c f a) {t : Tid} (hr : a.pc t = .wExit) :
    f.pc t = .wExit ∨ (f.pc t = .sizeIn ∧ f.ring.pc t = .obsUnlock .size 0) := by
  obtain ⟨_, base, hR⟩ := h
  have hpc := hR.pcs t
  rw [hr] at hpc
  cases hx : f.pc t <;> rw [hx] at hpc <;> first
    | exact .inl rfl
    | (have := (hpc.of_simple rfl).2.2; cases this; done)
    | (obtain ⟨_, ⟨_, h2⟩ | ⟨_, h2⟩ | ⟨_, _, _, h2, _⟩⟩ := hpc <;> cases h2; done)
    | (obtain ⟨_, r, n, _, _, h3, _⟩ := hpc; cases h3; done)
    | (obtain ⟨_, r, _, _, h3⟩ := hpc; cases h3; done)
    | (obtain ⟨_, ⟨_, h2⟩ | ⟨n, h1, h2⟩⟩ := hpc
       · cases h2
       · unfold sized at h2; split at h2
         · rename_i hn; rw [hn] at h1; exact .inr ⟨rfl, h1⟩
         · cases h2)
    | (obtain ⟨_, ⟨_, h2⟩ | ⟨_, h2⟩ | ⟨_, _, _, h2⟩⟩ := hpc
       · cases h2
       · unfold SinkConc.nothing at h2; split at h2 <;> cases h2
       · unfold SinkConc.taking at h2; split at h2 <;> cases h2)

/-- a thread that found the slot in use waits in `SinkConc` -/
theorem waits_noop {c : Cfg} {o : Bool} {f : St} {a : SinkConc.St} (h : Rel c f a) (hr : SinkConc.Reach c o a) (hb : Behind f.ring) {t : Tid}
    (hq : inQueue (f.pc t) = true) (ch : Ch)
    (hw : (∃ e, f.ring.pc t = .putCapture e ∧ f.ring.buf.nodeBusy f.ring.buf.pushIdx = true) ∨
      (f.ring.pc t = .getCapture ∧ f.ring.buf.nodeBusy f.ring.buf.popIdx = true)) : SinkConc.step c a t ch = a := by
  rcases hw with ⟨e, hp, hn⟩ | ⟨hp, hn⟩
  · obtain ⟨h1, h2⟩ := put_waits h hr hb hp hn
    obtain ⟨_, base, hR⟩ := h
    have hpc := hR.pcs t
    rw [hp] at hpc
    cases hx : f.pc t <;> rw [hx] at hq hpc <;> first | (cases hq; done) | skip
    · obtain ⟨_, ⟨_, h3⟩ | ⟨h3, _⟩ | ⟨_, _, h3, _⟩⟩ := hpc
      · unfold SinkConc.step; rw [h3]; dsimp only; rw [if_neg h1, if_pos h2]
      · cases h3
      · cases h3
    · obtain ⟨_, ⟨h3, _⟩ | ⟨h3, _⟩ | ⟨_, _, h3, _⟩⟩ := hpc <;> cases h3
    · obtain ⟨_, ⟨h3, _⟩ | ⟨_, h3, _⟩⟩ := hpc <;> cases h3
  · obtain ⟨h1, h2⟩ := get_waits h hr hp hn
    obtain ⟨_, base, hR⟩ := h
    have hpc := hR.pcs t
    rw [hp] at hpc
    cases hx : f.pc t <;> rw [hx] at hq hpc <;> first | (cases hq; done) | skip
    · obtain ⟨_, ⟨h3, _⟩ | ⟨h3, _⟩ | ⟨_, _, h3, _⟩⟩ := hpc <;> cases h3
    · obtain ⟨_, ⟨_, h3⟩ | ⟨h3, _⟩ | ⟨_, _, h3, _⟩⟩ := hpc
      · unfold SinkConc.step; rw [h3]; dsimp only
        rw [List.getElem?_eq_getElem h1]; dsimp only; rw [if_neg h2]
      · cases h3
      · cases h3
    · obtain ⟨_, ⟨h3, _⟩ | ⟨_, h3, _⟩⟩ := hpc <;> cases h3

/-- **Lifting**: when nobody is starved at the lock, the corresponding execution is an endless fair one. -/
theorem Endless.lift {c : Cfg} {o : Bool} {σ : Nat → Deed} {R : Nat → St} (h : Endless c o σ R) (hcap : 0 < c.capacity)
    (hl : NobodyStarves R) : ∃ σ' A, SinkConc.Endless c o σ' A ∧ (∀ n, Rel c (R n) (A n)) ∧ ∀ n t ch, σ' n = .step t ch → σ n = .step t ch := by
  obtain ⟨a0, hr0, h0⟩ := rel_refines hcap h.start
  refine ⟨fun n => absDeed c (R n) (σ n) (absRun c σ R a0 n), absRun c σ R a0, ⟨hr0, fun n => ?_, ?fair⟩, fun n => (h.rel hr0 h0 n).1, ?same⟩
  case same =>
    intro n t ch e
    dsimp only at e
    cases hs : σ n with
    | step u ch' =>
      rw [hs] at e
      unfold absDeed at e
      dsimp only at e
      split at e
      · exact e
      · cases e
    | call u k => rw [hs] at e; cases e
    | destroy u => rw [hs] at e; cases e
    | rest => rw [hs] at e; cases e
  · exact (does_rel (h.next n) (h.rel hr0 h0 n).1 (h.rel hr0 h0 n).2).2
  generalize hAe : absRun c σ R a0 = A
  have hA : ∀ n, Rel c (R n) (A n) := fun n => by rw [← hAe]; exact (h.rel hr0 h0 n).1
  have hAr : ∀ n, SinkConc.Reach c o (A n) := fun n => by rw [← hAe]; exact (h.rel hr0 h0 n).2
  have hAn : ∀ n, A (n + 1) = absNext c (R n) (σ n) (A n) := fun n => by rw [← hAe]; rfl
  have hAd : ∀ n, SinkConc.Does c (A n) (absDeed c (R n) (σ n) (A n)) (A (n + 1)) := fun n => by
    rw [hAn]; exact (does_rel (h.next n) (hA n) (hAr n)).2
  intro n0 t hrun
  refine Classical.byContradiction fun hno => ?_
  have hno' : ∀ m ch, n0 ≤ m → absDeed c (R m) (σ m) (A m) ≠ .step t ch := fun m ch h1 h2 => hno ⟨m, ch, h1, h2⟩
  have H : ∀ m ch, n0 ≤ m → σ m = .step t ch → shown (R m) t ch = false ∧ SinkConc.step c (A m) t ch ≠ A m := by
    intro m ch hm hs
    have h1 := hno' m ch hm
    rw [hs] at h1
    unfold absDeed at h1
    dsimp only at h1
    have h2 : absNext c (R m) (.step t ch) (A m) ≠ SinkConc.step c (A m) t ch := by
      intro e; rw [if_pos e] at h1; exact h1 rfl
    unfold absNext at h2
    dsimp only at h2
    cases e : shown (R m) t ch
    · rw [e, if_neg (by simp)] at h2
      exact ⟨rfl, fun e' => h2 e'.symm⟩
    · rw [e, if_pos rfl] at h2
      exact absurd rfl h2
  have hApc : ∀ d, (A (n0 + d)).pc t = (A n0).pc t := by
    intro d
    induction d with
    | zero => rfl
    | succ d ih =>
      refine (SinkConc.does_pc_same (hAd (n0 + d)) (by rw [ih]; exact hrun.1) (fun ch => hno' _ ch (by omega))).trans ih
  have hRun : ∀ m, n0 ≤ m → Running ((R m).pc t) := by
    intro m hm
    have := hApc (m - n0)
    rw [show n0 + (m - n0) = m by omega] at this
    exact rel_running (hA m) (by rw [this]; exact hrun)
  -- (iii)
  have hplain : ∀ m, n0 ≤ m → plain ((R m).pc t) = true → False := by
    intro m hm hp
    obtain ⟨m', ch, h1, h2, h3, h4, h5⟩ := h.first (hRun m hm)
    have := H m' ch (by omega) h2
    rcases plain_shown (hA m') (t := t) (by rw [h4]; exact hp) ch with e | e
    · rw [e] at this; exact nomatch this.1
    · exact this.2 e
  have hpast : ∀ m, n0 ≤ m → inQueue ((R m).pc t) = true → Ring.past ((R m).ring.pc t) = true → False := by
    intro m hm hq hp
    obtain ⟨m', h1, h2⟩ := h.getsOut hA _ m hq hp (Nat.le_refl _)
    rcases h2 with h2 | h2
    · exact hplain m' (by omega) h2
    · exact (hRun m' (by omega)).2.1 h2
  have hmid : ∀ g m, n0 ≤ m → inQueue ((R m).pc t) = true → Ring.mid ((R m).ring.pc t) = true → Ring.rank ((R m).ring.pc t) ≤ g → False := by
    intro g
    induction g with
    | zero =>
      intro m hm hq hp hg
      generalize (R m).ring.pc t = p at hp hg
      cases p <;> simp [Ring.mid, Ring.rank] at hp hg
    | succ g ih =>
      intro m hm hq hp hg
      obtain ⟨m', ch, h1, h2, h3, h4, h5⟩ := h.first (hRun m hm)
      rw [← h4] at hq
      rw [← h5] at hp hg
      obtain ⟨_, base, hR⟩ := hA m'
      have hrg := step_ring (c := c) ch hq
      rw [← h3] at hrg
      have hin : (Ring.tick (R m').ring t).pc t ≠ .idle → inQueue ((R (m' + 1)).pc t) = true := fun hi => by
        rw [h3]; exact step_inQueue (hA m') ch hq hi
      rcases tick_mid_cases hR.inv hp with e | ⟨e, e'⟩ | e
      · refine hpast (m' + 1) (by omega) (hin fun hi => ?_) (by rw [hrg]; exact e)
        rw [hi] at e; cases e
      · refine ih (m' + 1) (by omega) (hin fun hi => ?_) (by rw [hrg]; exact e) (by rw [hrg]; omega)
        rw [hi] at e; cases e
      · exact (H m' ch (by omega) h2).2 (waits_noop (hA m') (hAr m') (behind_reach hcap (h.reach m')) hq ch e)
  have hspin : ∀ m, n0 ≤ m → inQueue ((R m).pc t) = true → Ring.spinning ((R m).ring.pc t) = true → False := by
    intro m hm hq hp
    have key : ∀ d, inQueue ((R (m + d)).pc t) = true ∧ Ring.spinning ((R (m + d)).ring.pc t) = true := by
      intro d
      induction d with
      | zero => exact ⟨hq, hp⟩
      | succ d ih =>
        by_cases e : ∃ ch, σ (m + d) = .step t ch
        · obtain ⟨ch, e⟩ := e
          have hst : R (m + d + 1) = step c (R (m + d)) t ch := by have := h.next (m + d); rw [e] at this; exact this
          have hrg := step_ring (c := c) ch ih.1
          have hin : (Ring.tick (R (m + d)).ring t).pc t ≠ .idle → inQueue ((R (m + d + 1)).pc t) = true := fun hi => by
            rw [hst]; exact step_inQueue (hA (m + d)) ch ih.1 hi
          rw [← hst] at hrg
          rcases tick_spin_cases ih.2 with e | e | e
          · refine ⟨hin fun hi => ?_, ?_⟩
            · rw [e] at hi; rw [hi] at ih; cases ih.2
            · show Ring.spinning ((R (m + d + 1)).ring.pc t) = true
              rw [hrg, e]; exact ih.2
          · exact (hpast (m + d + 1) (by omega) (hin fun hi => by rw [hi] at e; cases e) (by rw [hrg]; exact e)).elim
          · exact (hmid _ (m + d + 1) (by omega) (hin fun hi => by rw [hi] at e; cases e) (by rw [hrg]; exact e) (Nat.le_refl _)).elim
        · have h1 := does_pc_same (h.next (m + d)) (hRun (m + d) (by omega)).1 (fun ch e' => e ⟨ch, e'⟩)
          have h2 := does_ring_same (h.next (m + d)) (t := t) (fun ch e' => e ⟨ch, e'⟩)
          show inQueue ((R (m + d + 1)).pc t) = true ∧ Ring.spinning ((R (m + d + 1)).ring.pc t) = true
          rw [h1, h2]; exact ih
    obtain ⟨m', h1, h2⟩ := hl m t (atLock_iff.2 hp)
    have := (key (m' - m)).2
    rw [show m + (m' - m) = m' by omega] at this
    exact h2 (atLock_iff.2 this)
  have hqueue : ∀ m, n0 ≤ m → inQueue ((R m).pc t) = true → False := by
    intro m hm hq
    rcases Ring.pc_cases (inQueue_ring (hA m) hq) with e | e | e | e
    · exact hpast m hm hq e
    · exact hmid _ m hm hq e (Nat.le_refl _)
    · exact hspin m hm hq e
    · obtain ⟨m', ch, h1, h2, h3, h4, h5⟩ := h.first (hRun m hm)
      rw [← h4] at hq
      rw [← h5] at e
      have hsp := tick_retry_spins e
      refine hspin (m' + 1) (by omega) ?_ ?_
      · rw [h3]; exact step_inQueue (hA m') ch hq (fun hi => by rw [hi] at hsp; cases hsp)
      · rw [h3, step_ring ch hq]; exact hsp
  -- (ix)
  have hjoin : ∀ m, n0 ≤ m → (R m).pc t = .dJoin → False := by
    intro m hm hp
    obtain ⟨m', ch, h1, h2, h3, h4, h5⟩ := h.first (hRun m hm)
    have hp' := h4.trans hp
    obtain ⟨h6, h7⟩ := H m' ch (by omega) h2
    have hapc : (A m').pc t = .dJoin := by
      obtain ⟨_, base, hR⟩ := hA m'
      have := hR.pcs t
      rw [hp'] at this
      exact (this.of_simple rfl).2.2
    have haw : (A m').pc workerTid = .wExit := by
      refine Classical.byContradiction fun hne => h7 ?_
      unfold SinkConc.step; rw [hapc]; dsimp only; rw [if_neg hne]
    have hw : ∃ m2, m' ≤ m2 ∧ (R m2).pc workerTid = .wExit := by
      rcases rel_exit (hA m') haw with e | ⟨e, e'⟩
      · exact ⟨m', Nat.le_refl _, e⟩
      · obtain ⟨m2, ch2, g1, g2, g3, g4, g5⟩ := h.first (n := m') (t := workerTid) (by rw [e]; exact ⟨by simp, by simp, by simp⟩)
        refine ⟨m2 + 1, by omega, ?_⟩
        rw [g3]; unfold step; simp only [g4.trans e, g5.trans e']; simp [setPc, upd]
    obtain ⟨m2, g1, g2⟩ := hw
    have hstay : ∀ d, (R (m2 + d)).pc workerTid = .wExit := by
      intro d
      induction d with
      | zero => exact g2
      | succ d ih =>
        by_cases e : ∃ ch, σ (m2 + d) = .step workerTid ch
        · obtain ⟨ch, e⟩ := e
          have hst : R (m2 + d + 1) = step c (R (m2 + d)) workerTid ch := by have := h.next (m2 + d); rw [e] at this; exact this
          show (R (m2 + d + 1)).pc workerTid = _
          rw [hst]; unfold step; simp only [ih]
        · exact (does_pc_same (h.next (m2 + d)) (by rw [ih]; simp) (fun ch e' => e ⟨ch, e'⟩)).trans ih
    -- `t` is still there
    have hat : ∀ d, (R (m' + d)).pc t = .dJoin := by
      intro d
      induction d with
      | zero => exact hp'
      | succ d ih =>
        by_cases e : ∃ ch, σ (m' + d) = .step t ch
        · obtain ⟨ch, e⟩ := e
          have hst : R (m' + d + 1) = step c (R (m' + d)) t ch := by have := h.next (m' + d); rw [e] at this; exact this
          have hs := (H (m' + d) ch (by omega) e).1
          unfold shown at hs; rw [ih] at hs
          have hs : (R (m' + d)).pc workerTid ≠ .wExit := by simpa using hs
          show (R (m' + d + 1)).pc t = _
          rw [hst]; unfold step; simp only [ih]; rw [if_neg hs]; exact ih
        · exact (does_pc_same (h.next (m' + d)) (by rw [ih]; simp) (fun ch e' => e ⟨ch, e'⟩)).trans ih
    obtain ⟨m3, ch3, k1, k2, k3, k4, k5⟩ := h.first (n := m2) (hRun m2 (by omega))
    have hs := (H m3 ch3 (by omega) k2).1
    have a1 := hat (m3 - m')
    rw [show m' + (m3 - m') = m3 by omega] at a1
    have a2 := hstay (m3 - m2)
    rw [show m2 + (m3 - m2) = m3 by omega] at a2
    unfold shown at hs; rw [a1] at hs
    simp [a2] at hs
  have henter : ∀ m, n0 ≤ m → ((∃ e, (R m).pc t = .put e) ∨ (∃ k, (R m).pc t = .get k) ∨ (R m).pc t = .wSize) → False := by
    intro m hm hp
    obtain ⟨m', ch, h1, h2, h3, h4, h5⟩ := h.first (hRun m hm)
    refine hqueue (m' + 1) (by omega) ?_
    rw [h3]
    rcases hp with ⟨e, hp⟩ | ⟨k, hp⟩ | hp <;> (unfold step; simp only [h4.trans hp]; simp [setPc, upd, inQueue])
  have hr := hRun n0 (Nat.le_refl _)
  have p1 := hplain n0 (Nat.le_refl _)
  have p2 := hqueue n0 (Nat.le_refl _)
  have p3 := hjoin n0 (Nat.le_refl _)
  have p4 := henter n0 (Nat.le_refl _)
  cases hx : (R n0).pc t <;> rw [hx] at hr p1 p2 p3 p4 <;> first
    | exact hr.1 rfl
    | exact hr.2.1 rfl
    | exact hr.2.2 rfl
    | exact p2 rfl
    | exact p3 rfl
    | exact p4 (.inl ⟨_, rfl⟩)
    | exact p4 (.inr (.inl ⟨_, rfl⟩))
    | exact p4 (.inr (.inr rfl))
    | exact p1 rfl

theorem rel_idle_back {c : Cfg} {f : St} {a : SinkConc.St} (h : Rel c f a) {t : Tid} (ha : a.pc t = .idle) : f.pc t = .idle := by
  obtain ⟨_, base, hR⟩ := h
  have hpc := hR.pcs t
  rw [ha] at hpc
  cases hx : f.pc t <;> rw [hx] at hpc <;> first
    | rfl
    | (have := (hpc.of_simple rfl).2.2; cases this; done)
    | (obtain ⟨_, ⟨_, h2⟩ | ⟨_, h2⟩ | ⟨_, _, _, h2, _⟩⟩ := hpc <;> cases h2; done)
    | (obtain ⟨_, r, n, _, _, h3, _⟩ := hpc; cases h3; done)
    | (obtain ⟨_, r, _, _, h3⟩ := hpc; cases h3; done)
    | (obtain ⟨_, ⟨_, h2⟩ | ⟨n, _, h2⟩⟩ := hpc
       · cases h2
       · unfold sized at h2; split at h2 <;> cases h2)
    | (obtain ⟨_, ⟨_, h2⟩ | ⟨_, h2⟩ | ⟨_, _, _, h2⟩⟩ := hpc
       · cases h2
       · unfold SinkConc.nothing at h2; split at h2 <;> cases h2
       · unfold SinkConc.taking at h2; split at h2 <;> cases h2)

theorem rel_dead_back {c : Cfg} {f : St} {a : SinkConc.St} (h : Rel c f a) {t : Tid} (ha : a.pc t = .dead) : f.pc t = .dead := by
  obtain ⟨_, base, hR⟩ := h
  have hpc := hR.pcs t
  rw [ha] at hpc
  cases hx : f.pc t <;> rw [hx] at hpc <;> first
    | rfl
    | (have := (hpc.of_simple rfl).2.2; cases this; done)
    | (obtain ⟨_, ⟨_, h2⟩ | ⟨_, h2⟩ | ⟨_, _, _, h2, _⟩⟩ := hpc <;> cases h2; done)
    | (obtain ⟨_, r, n, _, _, h3, _⟩ := hpc; cases h3; done)
    | (obtain ⟨_, r, _, _, h3⟩ := hpc; cases h3; done)
    | (obtain ⟨_, ⟨_, h2⟩ | ⟨n, _, h2⟩⟩ := hpc
       · cases h2
       · unfold sized at h2; split at h2 <;> cases h2)
    | (obtain ⟨_, ⟨_, h2⟩ | ⟨_, h2⟩ | ⟨_, _, _, h2⟩⟩ := hpc
       · cases h2
       · unfold SinkConc.nothing at h2; split at h2 <;> cases h2
       · unfold SinkConc.taking at h2; split at h2 <;> cases h2)

/-- as long as a call is pending, some call returns -/
theorem Endless.client_progress {c : Cfg} {o : Bool} {σ : Nat → Deed} {R : Nat → St} (h : Endless c o σ R) (hcap : 0 < c.capacity)
    (hl : NobodyStarves R) {N : Nat} (ho : (R N).owner = none) {t : Tid} (htw : t ≠ workerTid) (ht : (R N).pc t ≠ .idle) :
    ∃ m u, N ≤ m ∧ u ≠ workerTid ∧ (R m).pc u ≠ .idle ∧ (R (m + 1)).pc u = .idle := by
  obtain ⟨σ', A, hA, hR, _⟩ := h.lift hcap hl
  have ho' : (A N).owner = none := by rw [(hR N).1]; exact ho
  obtain ⟨m, u, h1, h2, h3, h4⟩ := hA.client_progress hcap ho' htw (fun e => ht (rel_idle_back (hR N) e))
  exact ⟨m, u, h1, h2, fun e => h3 (rel_idle (hR m) e), rel_idle_back (hR (m + 1)) h4⟩

theorem lat0_worker {c : Cfg} {o : Bool} {f : St} (hf : Reach c o f) (hl : c.latency0 = true) : f.pc workerTid = .wExit := by
  induction hf with
  | init => simp [init, hl]
  | @next f f' hf he ih =>
    cases he with
    | call t ht hi hd call => show upd _ _ _ _ = _; rw [upd, if_neg (fun e => ht e.symm)]; exact ih
    | destroy t ht hd hi => show upd _ _ _ _ = _; rw [upd, if_neg (fun e => ht e.symm)]; exact ih
    | step t ch =>
      by_cases e : workerTid = t
      · subst e; unfold step; simp only [ih]
      · rw [Race.step_pc_other c f t ch _ e]; exact ih

/-- while the sink is being destroyed only one thread uses the queue -/
theorem destroy_alone {c : Cfg} {o : Bool} (hcap : 0 < c.capacity) {f : St} (hf : Reach c o f) {d : Tid} (ho : f.owner = some d)
    {t u : Tid} (ht : f.ring.pc t ≠ .idle) (hu : f.ring.pc u ≠ .idle) : t = u := by
  obtain ⟨a, hr, h⟩ := rel_refines hcap hf
  have ho' : a.owner = some d := by rw [h.1]; exact ho
  obtain ⟨h1, h2, h3⟩ := (SinkConc.roles_reach hr).owner d ho'
  have hsimple : ∀ {v q}, SinkFull.simple (f.pc v) = some q → f.ring.pc v = .idle := by
    intro v q hs
    obtain ⟨_, base, hR⟩ := h
    exact ((hR.pcs v).of_simple hs).1
  have hother : ∀ v, v ≠ workerTid → v ≠ d → f.ring.pc v = .idle := fun v hv1 hv2 =>
    hsimple (by rw [rel_idle_back h (h3 v hv1 hv2)]; rfl)
  cases hl : c.latency0
  · have hd : f.ring.pc d = .idle := by
      have h4 := (SinkConc.final_reach hr).own d ho' hl
      have h5 : (a.pc d = .dStart ∨ a.pc d = .dAsync ∨ a.pc d = .dJoin ∨ a.pc d = .dEnd) ∨ a.pc d = .dead := by
        rcases h4 with h4 | ⟨_, h4⟩
        · exact .inl (.inl h4)
        · rcases h4 with h4 | h4 | h4 | h4 <;> simp [h4]
      obtain ⟨_, base, hR⟩ := h
      have hpc := hR.pcs d
      cases hx : f.pc d <;> rw [hx] at hpc <;> first
        | exact hpc.1
        | exact (hpc.of_simple rfl).1
        | (exfalso
           obtain ⟨_, ⟨_, h6⟩ | ⟨_, h6⟩ | ⟨_, _, _, h6, _⟩⟩ := hpc <;> rw [h6] at h5 <;> simp at h5; done)
        | (exfalso
           obtain ⟨_, ⟨_, h6⟩ | ⟨n, _, h6⟩⟩ := hpc
           · rw [h6] at h5; simp at h5
           · rw [h6] at h5; unfold sized at h5; split at h5 <;> simp at h5)
        | (exfalso
           obtain ⟨_, ⟨_, h6⟩ | ⟨_, h6⟩ | ⟨_, _, _, h6⟩⟩ := hpc
           · rw [h6] at h5; simp at h5
           · rw [h6] at h5; unfold SinkConc.nothing at h5; split at h5 <;> simp at h5
           · rw [h6] at h5; unfold SinkConc.taking at h5; split at h5 <;> simp at h5)
    have key : ∀ v, f.ring.pc v ≠ .idle → v = workerTid := fun v hv =>
      Classical.byContradiction fun e => by
        by_cases e' : v = d
        · rw [e'] at hv; exact hv hd
        · exact hv (hother v e e')
    rw [key t ht, key u hu]
  · have hw : f.ring.pc workerTid = .idle := hsimple (by rw [lat0_worker hf hl]; rfl)
    have key : ∀ v, f.ring.pc v ≠ .idle → v = d := fun v hv =>
      Classical.byContradiction fun e => by
        by_cases e' : v = workerTid
        · rw [e'] at hv; exact hv hw
        · exact hv (hother v e' e)
    rw [key t ht, key u hu]

theorem does_owner {c : Cfg} {s s' : St} {d : Deed} (h : Does c s d s') :
    s'.owner = s.owner ∨ (s.owner = none ∧ ∀ u, u ≠ workerTid → s.pc u = .idle) := by
  cases d with
  | rest => rw [show s' = s from h]; exact .inl rfl
  | call t k => obtain ⟨_, _, _, h4⟩ := h; rw [h4]; exact .inl rfl
  | destroy t => obtain ⟨_, h2, h3, h4⟩ := h; exact .inr ⟨h2, h3⟩
  | step t ch => rw [show s' = step c s t ch from h]; exact .inl (step_owner c s t ch)

/-- every client that is inside a call is in the list -/
def Busy (s : St) (l : List Tid) : Prop := ∀ t, t ≠ workerTid → s.pc t ≠ .idle → t ∈ l

theorem busy_reach {c : Cfg} {o : Bool} {f : St} (hf : Reach c o f) : ∃ l, Busy f l := by
  induction hf with
  | init =>
    refine ⟨[], fun t ht hne => absurd ?_ hne⟩
    show (if t = workerTid then _ else _) = _
    rw [if_neg ht]
  | @next f f' hf he ih =>
    obtain ⟨l, hl⟩ := ih
    have key : ∀ t, (∀ u, u ≠ t → f'.pc u = f.pc u) → ∃ l, Busy f' l := fun t hk =>
      ⟨t :: l, fun u hu hne => by
        by_cases e : u = t
        · rw [e]; exact List.mem_cons_self
        · exact List.mem_cons_of_mem _ (hl u hu (by rw [← hk u e]; exact hne))⟩
    cases he with
    | call t ht hi hd call => exact key t fun u hu => by show upd _ _ _ _ = _; rw [upd, if_neg hu]
    | destroy t ht hd hi => exact key t fun u hu => by show upd _ _ _ _ = _; rw [upd, if_neg hu]
    | step t ch => exact key t fun u hu => Race.step_pc_other c f t ch u hu

theorem step_idle {c : Cfg} {s : St} {t : Tid} (ch : Ch) {u : Tid} (h : s.pc u = .idle) : (step c s t ch).pc u = .idle := by
  by_cases e : u = t
  · subst e; unfold step; simp only [h]
  · rw [Race.step_pc_other c s t ch u e]; exact h

/-- When no more calls are made, every call returns. -/
theorem Endless.all_return {c : Cfg} {o : Bool} {σ : Nat → Deed} {R : Nat → St} (h : Endless c o σ R) (hcap : 0 < c.capacity)
    (hl : NobodyStarves R) {N : Nat} (ho : (R N).owner = none) (hN : ∀ n, N ≤ n → ∀ t k, σ n ≠ .call t k) :
    ∃ m, N ≤ m ∧ ∀ t, t ≠ workerTid → (R m).pc t = .idle := by
  by_cases hown : ∃ m, N ≤ m ∧ (R m).owner ≠ none
  · obtain ⟨m, hm, hne⟩ := hown
    have key : ∀ d n, N ≤ n → (R n).owner = none → (R (n + d)).owner ≠ none → ∃ m, N ≤ m ∧ ∀ t, t ≠ workerTid → (R m).pc t = .idle := by
      intro d
      induction d with
      | zero => intro n _ h1 h2; exact absurd h1 h2
      | succ d ih =>
        intro n hn h1 h2
        rcases does_owner (h.next n) with e | ⟨_, e⟩
        · exact ih (n + 1) (by omega) (e.trans h1) (by rw [show n + 1 + d = n + (d + 1) by omega]; exact h2)
        · exact ⟨n, hn, e⟩
    exact key (m - N) N (Nat.le_refl _) ho (by rw [show N + (m - N) = m by omega]; exact hne)
  have hown' : ∀ m, N ≤ m → (R m).owner = none := fun m hm => Classical.byContradiction fun e => hown ⟨m, hm, e⟩
  have hidle : ∀ m u, N ≤ m → (R m).pc u = .idle → (R (m + 1)).pc u = .idle := by
    intro m u hm hi
    have hd := h.next m
    cases hs : σ m with
    | rest => rw [hs] at hd; rw [show R (m + 1) = R m from hd]; exact hi
    | call t k => exact absurd hs (hN m hm t k)
    | step t ch => rw [hs] at hd; rw [show R (m + 1) = _ from hd]; exact step_idle ch hi
    | destroy t =>
      rw [hs] at hd
      obtain ⟨_, _, _, h4⟩ := hd
      have := hown' (m + 1) (by omega)
      rw [h4] at this; cases this
  have key : ∀ k n (l : List Tid), N ≤ n → l.length ≤ k → Busy (R n) l → ∃ m, n ≤ m ∧ ∀ t, t ≠ workerTid → (R m).pc t = .idle := by
    intro k
    induction k with
    | zero =>
      intro n l _ hl hp
      refine ⟨n, Nat.le_refl _, fun t ht => Classical.byContradiction fun h => ?_⟩
      have := hp t ht h
      rw [List.length_eq_zero_iff.1 (by omega : l.length = 0)] at this
      cases this
    | succ k ih =>
      intro n l hn hll hp
      by_cases he : ∀ t, t ≠ workerTid → (R n).pc t = .idle
      · exact ⟨n, Nat.le_refl _, he⟩
      · obtain ⟨u, hu⟩ := Classical.not_forall.1 he
        have huw : u ≠ workerTid := Classical.byContradiction fun e => hu fun e' => absurd e' e
        obtain ⟨m, v, hm, hvw, h1, h2⟩ := h.client_progress hcap hl (hown' n hn) huw (fun e => hu fun _ => e)
        have hkeep : ∀ d, Busy (R (n + d)) l := by
          intro d
          induction d with
          | zero => exact hp
          | succ d ihd => exact fun t htw ht => ihd t htw fun e => ht (hidle (n + d) t (by omega) e)
        have hpm := hkeep (m - n)
        rw [show n + (m - n) = m by omega] at hpm
        have hv := hpm v hvw h1
        obtain ⟨m', h3, h4⟩ := ih (m + 1) (l.filter (· ≠ v)) (by omega) (by
            have : (l.filter (· ≠ v)).length < l.length := by
              refine Nat.lt_of_le_of_ne (List.length_filter_le _ _) fun e => ?_
              have := (List.length_filter_eq_length_iff.1 e) v hv
              simp at this
            omega) (fun t htw ht => by
            have hne : t ≠ v := fun e => ht (by rw [e]; exact h2)
            have : t ∈ l := hpm t htw fun e => ht (hidle m t (by omega) e)
            simpa using ⟨this, hne⟩)
        exact ⟨m', by omega, h4⟩
  obtain ⟨l, hbl⟩ := busy_reach (h.reach N)
  exact key _ N l (Nat.le_refl _) (Nat.le_refl _) hbl

end SinkFull
end Soralog
