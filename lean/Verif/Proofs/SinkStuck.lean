import Verif.Proofs.SinkFullLive
import Verif.Proofs.RingStuck
/-! # A thread that never finishes formatting its message -/
namespace Soralog
namespace SinkFull
open SinkConc (Cfg Ret Ch Call)
open Ring (w inCS slotOf Constructing InsideGet Jam Asleep)

theorem step_asleep (c : Cfg) (s : St) {t u : Tid} (ch : Ch) (hu : u ≠ t) : ∃ as, Asleep t as ∧ (step c s u ch).ring = Ring.exec s.ring as := by
  rcases step_ring_cases c s u ch with h | ⟨x, h⟩ | ⟨i, h⟩ | ⟨_, h⟩
  · exact ⟨[], fun _ ha => (by cases ha), h⟩
  · exact ⟨[.call u x], fun a ha => (by cases List.mem_singleton.1 ha; trivial), h⟩
  · exact ⟨[.drop i], fun a ha => (by cases List.mem_singleton.1 ha; trivial), h⟩
  · exact ⟨[.step u], fun a ha => (by cases List.mem_singleton.1 ha; exact hu), h⟩

theorem others_asleep {c : Cfg} {t : Tid} {s s' : St} (h : Others c t s s') : ∃ as, Asleep t as ∧ s'.ring = Ring.exec s.ring as := by
  induction h with
  | refl => exact ⟨[], fun _ ha => (by cases ha), rfl⟩
  | call u x _ _ _ _ ih => exact ih
  | destroy u _ _ _ _ ih => exact ih
  | step u ch _ hu ih =>
    obtain ⟨as, h1, h2⟩ := ih
    obtain ⟨bs, h3, h4⟩ := step_asleep c _ ch hu
    refine ⟨as ++ bs, fun a ha => (List.mem_append.1 ha).elim (h1 a) (h3 a), ?_⟩
    rw [h4, h2, Ring.exec_append]

theorem others_reach {c : Cfg} {o : Bool} {t : Tid} {s s' : St} (hr : Reach c o s) (h : Others c t s s') : Reach c o s' := by
  induction h with
  | refl => exact hr
  | call u x _ h1 h2 h3 ih => exact .next ih (.call _ u h1 h2 h3 x)
  | destroy u _ h1 h2 h3 ih => exact .next ih (.destroy _ u h1 h2 h3)
  | step u ch _ _ ih => exact .next ih (.step _ u ch)

theorem others_trans {c : Cfg} {t : Tid} {s s' s'' : St} (h1 : Others c t s s') (h2 : Others c t s' s'') : Others c t s s'' := by
  induction h2 with
  | refl => exact h1
  | call u x _ a b d ih => exact .call u x ih a b d
  | destroy u _ a b d ih => exact .destroy u ih a b d
  | step u ch _ a ih => exact .step u ch ih a

theorem formatting_constructing {s : St} {t : Tid} : FormattingNext s t ↔ Constructing s.ring t s.ring.buf.popIdx := Iff.rfl

/-- in a jam a thread inside `get` stays inside -/
theorem jam_stays {cap : Nat} {t : Tid} {k : Nat} {s : Ring.St Event} (h : Jam cap t k s) (u : Tid) (hi : InsideGet (s.pc u)) :
    InsideGet ((Ring.tick s u).pc u) := by
  have hsz := h.size
  obtain ⟨q, hI⟩ := h.inv
  have h0 := h.quiet u
  unfold Ring.tick
  generalize hp : s.pc u = p at hi h0
  cases p <;> first | exact hi.elim | exact absurd rfl h0.1 | exact absurd rfl (h0.2 _ _) | skip
  all_goals dsimp only
  all_goals (repeat' split) <;> first
    | (rw [hp]; trivial)
    | (show InsideGet (upd _ _ _ _); rw [upd, if_pos rfl]; trivial)

theorem getIn_inside {c : Cfg} {o : Bool} (hcap : 0 < c.capacity) {s : St} (hr : Reach c o s) {u : Tid} {k : Ret} (h : s.pc u = .getIn k) :
    InsideGet (s.ring.pc u) := by
  obtain ⟨a, _, _, base, hR⟩ := rel_refines hcap hr
  have hpc := hR.pcs u
  rw [h] at hpc
  obtain ⟨_, ⟨h1, _⟩ | ⟨h1, _⟩ | ⟨i, v, h1, _⟩⟩ := hpc
  · have h2 := hR.inv.pcs u
    generalize s.ring.pc u = p at h1 h2
    cases p <;> first
      | trivial
      | (simp [Ring.phase] at h1; done)
      | (simp only [Ring.phase, Spec.Phase.called.injEq] at h1; subst h1; cases h2)
  · rw [h1]; trivial
  · rw [h1]; trivial

theorem stuck_stays {c : Cfg} {o : Bool} (hcap : 0 < c.capacity) {t : Tid} {k : Nat} {s s' : St} (hr : Reach c o s)
    (hj : Jam c.capacity t k s.ring) (h : Others c t s s') {u : Tid} {r : Ret} (hu : s.pc u = .getIn r) : s'.pc u = .getIn r := by
  have hut : u ≠ t := by
    rintro rfl
    have h1 := getIn_inside hcap hr hu
    obtain ⟨v, h2 | h2⟩ := hj.busy <;> rw [h2] at h1 <;> exact h1
  induction h with
  | refl => exact hu
  | @call s' v x _ h1 h2 _ ih =>
    show upd _ _ _ _ = _
    rw [upd]; split
    · rename_i e; subst e; rw [ih] at h2; cases h2
    · exact ih
  | @destroy s' v _ h1 h2 h3 ih =>
    show upd _ _ _ _ = _
    rw [upd]; split
    · rename_i e; subst e; rw [h3 u h1] at ih; cases ih
    · exact ih
  | @step s' v ch hs hv ih =>
    obtain ⟨as, ha, hx⟩ := others_asleep hs
    have hj' := (hj.exec as ha).1
    rw [← hx] at hj'
    by_cases e : u = v
    · subst e
      have hin := jam_stays hj' u (getIn_inside hcap (others_reach hr hs) ih)
      have ho : outside ((Ring.tick s'.ring u).pc u) = false := by
        generalize (Ring.tick s'.ring u).pc u = p at hin
        cases p <;> first | rfl | exact hin.elim
      unfold step
      simp only [ih]
      rw [ho]
      exact ih
    · have : (step c s' v ch).pc u = s'.pc u := by
        unfold step
        have hset : ∀ (x : St) (p : PC), (setPc x v p).pc u = x.pc u := fun x p => by show upd _ _ _ _ = _; rw [upd, if_neg e]
        cases hp : s'.pc v with
        | write k e => cases e <;> dsimp only <;> (repeat' split) <;> first | rfl | exact hset _ _
        | _ => dsimp only <;> (repeat' split) <;> first | rfl | exact hset _ _
      rw [this]; exact ih

/-! ## what it does not block -/

theorem StepsBy.trans {c : Cfg} {P : Tid → Prop} {a b d : St} (h1 : StepsBy c P a b) (h2 : StepsBy c P b d) : StepsBy c P a d := by
  induction h1 with
  | refl => exact h2
  | more t ch hp _ ih => exact .more t ch hp (ih h2)

theorem StepsBy.mono {c : Cfg} {P Q : Tid → Prop} {a b : St} (h : StepsBy c P a b) (hPQ : ∀ t, P t → Q t) : StepsBy c Q a b := by
  induction h with
  | refl => exact .refl _
  | more t ch hp _ ih => exact .more t ch (hPQ t hp) ih

theorem StepsBy.reach {c : Cfg} {o : Bool} {P : Tid → Prop} {a b : St} (h : StepsBy c P a b) (hr : Reach c o a) : Reach c o b := by
  induction h with
  | refl => exact hr
  | more t ch _ _ ih => exact ih (.next hr (.step _ t ch))

/-- inside `put`, or back from it -/
def PutPhase (e : Event) (p : PC) : Prop := p = .putIn e ∨ p = .count ∨ p = .enter (.retry e)

theorem step_pc_other (c : Cfg) (s : St) {t u : Tid} (ch : Ch) (e : u ≠ t) : (step c s t ch).pc u = s.pc u := by
  unfold step
  have hset : ∀ (x : St) (p : PC), (setPc x t p).pc u = x.pc u := fun x p => by show upd _ _ _ _ = _; rw [upd, if_neg e]
  cases hp : s.pc t with
  | write k e => cases e <;> dsimp only <;> (repeat' split) <;> first | rfl | exact hset _ _
  | _ => dsimp only <;> (repeat' split) <;> first | rfl | exact hset _ _

theorem setPc_self (x : St) (t : Tid) (p : PC) : (setPc x t p).pc t = p := by show upd _ _ _ _ = _; rw [upd, if_pos rfl]

theorem step_putPhase {c : Cfg} {s : St} {u : Tid} {e : Event} (ch : Ch) (h : s.pc u = .putIn e) : PutPhase e ((step c s u ch).pc u) := by
  unfold step
  simp only [h]
  split
  · split
    · rw [setPc_self]; exact .inr (.inl rfl)
    · rw [setPc_self]; exact .inr (.inr rfl)
  · exact .inl h

/-- the holder of the lock of the queue leaves it; nobody else moves -/
theorem leave_lock {c : Cfg} {o : Bool} {u : Tid} {e : Event} {f : St} (hcap : 0 < c.capacity) (hf : Reach c o f) (hu : f.pc u = .putIn e) :
    ∃ f', StepsBy c (fun v => inCS (f.ring.pc v) = true) f f' ∧ PutPhase e (f'.pc u) ∧ (f'.pc u = .putIn e → Quiet f') ∧
      ∀ v, inCS (f.ring.pc v) = false → f'.ring.pc v = f.ring.pc v := by
  by_cases hq : ∀ t, inCS (f.ring.pc t) = false
  · exact ⟨f, .refl f, .inl hu, fun _ => hq, fun _ _ => rfl⟩
  have : ∃ t, inCS (f.ring.pc t) = true := by
    apply Classical.byContradiction
    intro hc; apply hq; intro t
    cases hx : inCS (f.ring.pc t) with
    | false => rfl
    | true => exact absurd ⟨t, hx⟩ hc
  obtain ⟨t, ht⟩ := this
  have key : ∀ (m : Nat) (f : St), Reach c o f → f.pc u = .putIn e → inCS (f.ring.pc t) = true → Ring.csRank (f.ring.pc t) ≤ m →
      ∃ f', StepsBy c (fun v => v = t) f f' ∧ PutPhase e (f'.pc u) ∧ (f'.pc u = .putIn e → Quiet f') ∧
        ∀ v, v ≠ t → f'.ring.pc v = f.ring.pc v := by
    intro m
    induction m with
    | zero => intro f _ _ hcs hm; have := Ring.csRank_pos.2 hcs; omega
    | succ m ih =>
      intro f hf hu hcs hm
      obtain ⟨a, _, _, base, hR⟩ := rel_refines hcap hf
      have hin : inQueue (f.pc t) = true := by
        cases hx : inQueue (f.pc t) with
        | true => rfl
        | false => rw [not_inQueue (hR.pcs t) hx] at hcs; cases hcs
      have hring := step_ring (c := c) (t := t) SinkConc.good hin
      have hlt := Ring.csRank_tick hR.inv hcs
      have hoth : ∀ v, v ≠ t → (step c f t SinkConc.good).ring.pc v = f.ring.pc v := fun v hv => by rw [hring, tick_other _ hv]
      have hph : PutPhase e ((step c f t SinkConc.good).pc u) := by
        by_cases hut : u = t
        · subst hut; exact step_putPhase _ hu
        · rw [step_pc_other c f _ hut]; exact .inl hu
      rcases hph with hph | hph | hph
      · cases hcs' : inCS ((Ring.tick f.ring t).pc t) with
        | false =>
          refine ⟨step c f t SinkConc.good, .more t _ rfl (.refl _), .inl hph, fun _ v => ?_, hoth⟩
          rw [hring]
          by_cases hv : v = t
          · subst hv; exact hcs'
          · rw [tick_other _ hv]; exact hR.inv.others hcs hv
        | true =>
          obtain ⟨f', h1, h2, h3, h4⟩ := ih _ (.next hf (.step _ t SinkConc.good)) hph (by rw [hring]; exact hcs') (by rw [hring]; omega)
          exact ⟨f', .more t _ rfl h1, h2, h3, fun v hv => (h4 v hv).trans (hoth v hv)⟩
      · exact ⟨_, .more t _ rfl (.refl _), .inr (.inl hph), fun hx => (by rw [hph] at hx; cases hx), hoth⟩
      · exact ⟨_, .more t _ rfl (.refl _), .inr (.inr hph), fun hx => (by rw [hph] at hx; cases hx), hoth⟩
  obtain ⟨f', h1, h2, h3, h4⟩ := key _ f hf hu ht (Nat.le_refl _)
  exact ⟨f', h1.mono (fun v hv => hv ▸ ht), h2, h3, fun v hv => h4 v (fun hx => (by subst hx; rw [ht] at hv; cases hv))⟩

/-- a thread inside `put` with nothing in its way gets through -/
theorem run_put {c : Cfg} {o : Bool} (hcap : 0 < c.capacity) {u : Tid} {e : Event} : ∀ (m : Nat) (f : St), Reach c o f → f.pc u = .putIn e →
    Ring.Clear f.ring u → Ring.rank (f.ring.pc u) ≤ m →
    ∃ f', StepsBy c (fun v => v = u) f f' ∧ (f'.pc u = .count ∨ f'.pc u = .enter (.retry e)) := by
  intro m
  have busy : ∀ f, Reach c o f → f.pc u = .putIn e → f.ring.pc u ≠ .idle := by
    intro f hf hu hi
    obtain ⟨a, _, _, base, hR⟩ := rel_refines hcap hf
    have hpc := hR.pcs u
    rw [hu, hi] at hpc
    obtain ⟨_, ⟨h1, _⟩ | ⟨h1, _⟩ | ⟨k, n, h1, _⟩⟩ := hpc <;> cases h1
  induction m with
  | zero =>
    intro f hf hu _ hm
    exfalso
    apply busy f hf hu
    generalize f.ring.pc u = p at hm
    cases p <;> simp [Ring.rank] at hm; rfl
  | succ m ih =>
    intro f hf hu hc hm
    obtain ⟨a, _, _, base, hR⟩ := rel_refines hcap hf
    obtain ⟨hc', hlt⟩ := Ring.clear_tick hR.inv hc (busy f hf hu)
    have hring := step_ring (c := c) (f := f) (t := u) SinkConc.good (by rw [hu]; rfl)
    rcases step_putPhase (c := c) SinkConc.good hu with h1 | h1 | h1
    · obtain ⟨f', h2, h3⟩ := ih _ (.next hf (.step _ u SinkConc.good)) h1 (by rw [hring]; exact hc') (by rw [hring]; omega)
      exact ⟨f', .more u _ rfl h2, h3⟩
    · exact ⟨_, .more u _ rfl (.refl _), .inl h1⟩
    · exact ⟨_, .more u _ rfl (.refl _), .inr h1⟩

/-- what dropping a `NodeRef` does -/
structure Let (f f' : St) (k : Nat) : Prop where
  node : f'.ring.buf.nodeBusy k = false
  push : f'.ring.buf.pushIdx = f.ring.buf.pushIdx
  busy : f'.ring.buf.busy = f.ring.buf.busy
  pcs : f'.ring.pc = f.ring.pc

theorem dropRef_let {f f' : St} {t : Tid} {r : Ring.Ref Event} (hr : f'.ring = dropRef f.ring t) (hm : mine f.ring t = [r]) : Let f f' r.slot := by
  have hfi : f.ring.refs[f.ring.refs.findIdx (isMine t)]? = some r := by
    have h1 := find_mine (l := f.ring.refs) (p := isMine t) (x := r) (m := []) hm
    rw [← List.find?_eq_getElem?_findIdx]
    exact h1
  have : dropRef f.ring t = Ring.drop f.ring (f.ring.refs.findIdx (isMine t)) := rfl
  rw [this] at hr
  have hd : (Ring.drop f.ring (f.ring.refs.findIdx (isMine t))).buf.nodeBusy r.slot = false := by
    unfold Ring.drop; rw [hfi]; simp
  exact ⟨by rw [hr]; exact hd, by rw [hr, (Ring.drop_idx _ _).1], by rw [hr, Ring.drop_busy], by rw [hr, Ring.drop_pc]⟩

/-- a thread that reads through a `NodeRef` lets go of it in at most three steps of its own -/
theorem let_go {c : Cfg} {o : Bool} (hcap : 0 < c.capacity) {f : St} (hf : Reach c o f) {r : Ring.Ref Event} (hr : r ∈ f.ring.refs)
    (hg : r.fromGet = true) : ∃ f', StepsBy c (fun v => v = r.owner) f f' ∧ Let f f' r.slot ∧ ∀ v, v ≠ r.owner → f'.pc v = f.pc v := by
  obtain ⟨a, _, _, base, hR⟩ := rel_refines hcap hf
  obtain ⟨hm, _⟩ := ref_owner hR hr
  have hpc := hR.pcs r.owner
  have hrm : r ∈ mine f.ring r.owner := by rw [hm]; exact List.mem_cons_self
  have oth : ∀ (f : St) v, v ≠ r.owner → (step c f r.owner SinkConc.good).pc v = f.pc v := fun f v hv => step_pc_other c f _ hv
  -- the last step
  have last : ∀ f0 : St, f0.ring = f.ring → (∀ v, v ≠ r.owner → f0.pc v = f.pc v) →
      (∃ k e, f0.pc r.owner = .unref k e) ∨ (∃ k, f0.pc r.owner = .sUnref k) →
      ∃ f', StepsBy c (fun v => v = r.owner) f0 f' ∧ Let f f' r.slot ∧ ∀ v, v ≠ r.owner → f'.pc v = f.pc v := by
    intro f0 h0 hv hp
    refine ⟨step c f0 r.owner SinkConc.good, .more _ _ rfl (.refl _), ?_, fun v h => (oth f0 v h).trans (hv v h)⟩
    refine dropRef_let (t := r.owner) ?_ hm
    rcases hp with ⟨k, e, hp⟩ | ⟨k, hp⟩ <;> (unfold step; simp only [hp]; show dropRef f0.ring _ = _; rw [h0])
  have rd : ∀ f0 : St, f0.ring = f.ring → readRef f0.ring r.owner = some r.val := fun f0 h0 => by rw [h0]; exact read_val hR hm
  cases hp : f.pc r.owner with
  | unref k e => exact last f rfl (fun _ _ => rfl) (.inl ⟨k, e, hp⟩)
  | sUnref k => exact last f rfl (fun _ _ => rfl) (.inr ⟨k, hp⟩)
  | uncount k =>
    have h1 : (step c f r.owner SinkConc.good).ring = f.ring := by unfold step; simp only [hp, rd f rfl]; rfl
    obtain ⟨f', h2, h3⟩ := last _ h1 (oth f) (.inl ⟨k, r.val, by unfold step; simp only [hp, rd f rfl]; exact setPc_self _ _ _⟩)
    exact ⟨f', .more _ _ rfl h2, h3⟩
  | sUncount k =>
    have h1 : (step c f r.owner SinkConc.good).ring = f.ring := by unfold step; simp only [hp, rd f rfl]; rfl
    obtain ⟨f', h2, h3⟩ := last _ h1 (oth f) (.inr ⟨k, by unfold step; simp only [hp, rd f rfl]; exact setPc_self _ _ _⟩)
    exact ⟨f', .more _ _ rfl h2, h3⟩
  | sCall k =>
    have h1 : (step c f r.owner SinkConc.good).ring = f.ring := by unfold step; simp only [hp, rd f rfl]; rfl
    have hp1 : (step c f r.owner SinkConc.good).pc r.owner = .sUncount k := by
      unfold step; simp only [hp, rd f rfl]; exact setPc_self _ _ _
    have hv1 := oth f
    generalize hf1 : step c f r.owner SinkConc.good = f1 at h1 hp1 hv1
    have h2 : (step c f1 r.owner SinkConc.good).ring = f.ring := by
      rw [← h1]; unfold step; simp only [hp1, rd f1 h1]; rfl
    obtain ⟨f', h3, h4⟩ := last _ h2 (fun v hv => (oth f1 v hv).trans (hv1 v hv))
      (.inr ⟨k, by unfold step; simp only [hp1, rd f1 h1]; exact setPc_self _ _ _⟩)
    exact ⟨f', .more r.owner SinkConc.good rfl (by rw [hf1]; exact .more r.owner SinkConc.good rfl h3), h4⟩
  | putIn e => rw [hp] at hpc; rw [hpc.1] at hrm; cases hrm
  | getIn k => rw [hp] at hpc; rw [hpc.1] at hrm; cases hrm
  | sizeIn => rw [hp] at hpc; rw [hpc.1] at hrm; cases hrm
  | count =>
    rw [hp] at hpc
    obtain ⟨_, x, n, h2, h3, _⟩ := hpc
    rw [hm] at h2; cases h2; rw [hg] at h3; cases h3
  | release =>
    rw [hp] at hpc
    obtain ⟨_, x, n, h2, h3, _⟩ := hpc
    rw [hm] at h2; cases h2; rw [hg] at h3; cases h3
  | _ => rw [hp] at hpc; rw [(hpc.of_simple rfl).2.1] at hrm; cases hrm

/-- A push that is inside the queue gets out of it without the help of any thread that is formatting a message. -/
theorem push_through {c : Cfg} {o : Bool} (hcap : 0 < c.capacity) {f : St} (hf : Reach c o f) {u : Tid} {e : Event} (hu : f.pc u = .putIn e) :
    ∃ f', StepsBy c (fun v => v = u ∨ ¬ Formatting f v) f f' ∧ (f'.pc u = .count ∨ f'.pc u = .enter (.retry e)) := by
  obtain ⟨f1, s1, hph, hq, hsame⟩ := leave_lock hcap hf hu
  have s1' : StepsBy c (fun v => v = u ∨ ¬ Formatting f v) f f1 := s1.mono fun v hv => .inr (by
    rintro ⟨e, k, h | h⟩ <;> rw [h] at hv <;> cases hv)
  rcases hph with hph | hph | hph
  rotate_left
  · exact ⟨f1, s1', .inl hph⟩
  · exact ⟨f1, s1', .inr hph⟩
  have hq := hq hph
  have hf1 := s1.reach hf
  obtain ⟨a, hra, he, base, hR⟩ := rel_refines hcap hf1
  have hfree := quiet_free hR hq
  have go : ∀ f2, StepsBy c (fun v => v = u ∨ ¬ Formatting f v) f f2 → f2.pc u = .putIn e → Ring.Clear f2.ring u →
      ∃ f', StepsBy c (fun v => v = u ∨ ¬ Formatting f v) f f' ∧ (f'.pc u = .count ∨ f'.pc u = .enter (.retry e)) := by
    intro f2 s2 h2 hc
    obtain ⟨f3, s3, h3⟩ := run_put hcap _ f2 (s2.reach hf) h2 hc (Nat.le_refl _)
    exact ⟨f3, s2.trans (s3.mono fun v hv => .inl hv), h3⟩
  have hpc := hR.pcs u
  rw [hph] at hpc
  obtain ⟨hmu, ⟨h1, h2⟩ | ⟨h1, h2⟩ | ⟨k, n, h1, h2, h3⟩⟩ := hpc
  · rcases spin_put ⟨he, base, hR⟩ hq h2 with hx | ⟨_, hx⟩
    · rw [hph] at hx; cases hx
    by_cases hfull : f1.ring.buf.popIdx = f1.ring.buf.pushIdx ∧ f1.ring.buf.size ≠ 0
    · exact go f1 s1' hph ⟨.inr hfree, by rw [hx]; exact .inl hfull⟩
    cases hn : f1.ring.buf.nodeBusy f1.ring.buf.pushIdx
    · exact go f1 s1' hph ⟨.inr hfree, by rw [hx]; exact .inr hn⟩
    have hI := hR.inv
    have hpop : f1.ring.buf.popIdx = base := hI.popI fun t => Ring.isGetCount_cs (hq t)
    have hpush : f1.ring.buf.pushIdx = w c.capacity base f1.ring.buf.size := hI.pushI fun t => Ring.isPutCount_cs (hq t)
    -- no element of the queue is where the next one goes
    have nope : ∀ i, i < f1.ring.buf.size → f1.ring.buf.pushIdx ≠ w c.capacity base i := by
      intro i h1 h2
      have hle := hI.sizeLe
      have hbl := hI.baseLt
      rw [hpush] at h2
      rw [hpush, hpop] at hfull
      by_cases hlt : f1.ring.buf.size < c.capacity
      · have := Ring.w_inj hbl hlt (by omega) h2
        omega
      · have e : w c.capacity base f1.ring.buf.size = base := by
          unfold w; rw [if_neg (by omega)]; omega
        exact hfull ⟨e.symm, by omega⟩
    rcases (hI.owned _).1 hn with ⟨t, ht⟩ | ⟨r, hr, hk⟩
    · exfalso
      have hcs := hq t
      have hp := hI.pcs t
      generalize f1.ring.pc t = p at ht hcs hp
      cases p <;> simp only [slotOf, inCS, Option.some.injEq] at ht hcs <;> try contradiction
      · subst ht; obtain ⟨i, h1, h2, _⟩ := hp; rw [hI.capEq] at h2; exact nope i h1 h2
      · subst ht; obtain ⟨i, h1, h2, _⟩ := hp; rw [hI.capEq] at h2; exact nope i h1 h2
    · cases hg : r.fromGet
      · exfalso
        obtain ⟨i, hi, hs, _⟩ := hI.refPut r hr hg
        exact nope i hi (by rw [← hk]; exact hs)
      · obtain ⟨f2, s2, hlet, hoth⟩ := let_go hcap hf1 hr hg
        obtain ⟨hm, _⟩ := ref_owner hR hr
        have hou : u ≠ r.owner := by
          intro hx
          rw [← hx, hmu] at hm; cases hm
        have hidle : f1.ring.pc r.owner = .idle := by
          have hp := hR.pcs r.owner
          have hrm : r ∈ mine f1.ring r.owner := by rw [hm]; exact List.mem_cons_self
          cases hx : f1.pc r.owner <;> rw [hx] at hp <;> first
            | exact hp.1
            | (rw [hp.1] at hrm; cases hrm)
        have s2' : StepsBy c (fun v => v = u ∨ ¬ Formatting f v) f1 f2 := s2.mono fun v hv => .inr (by
          subst hv
          rintro ⟨e, k, h | h⟩
          · have := hsame r.owner (by rw [h]; rfl); rw [hidle, h] at this; cases this
          · have := hsame r.owner (by rw [h]; rfl); rw [hidle, h] at this; cases this)
        refine go f2 (s1'.trans s2') (by rw [hoth u hou]; exact hph) ⟨.inr (by rw [hlet.busy]; exact hfree), ?_⟩
        rw [hlet.pcs, hx]
        refine .inr ?_
        rw [hlet.push, ← hk]
        exact hlet.node
  · have := hq u; rw [h1] at this; cases this
  · refine go f1 s1' hph ⟨.inr hfree, ?_⟩
    cases hx : f1.ring.pc u <;> rw [hx] at h1 <;> first | trivial | (cases h1; done)

/-- with a worker, a push that has stored its event returns by steps of its own -/
theorem push_returns {c : Cfg} {o : Bool} (hcap : 0 < c.capacity) (hl : c.latency0 = false) {f : St} (hf : Reach c o f) {u : Tid}
    (hu : f.pc u = .count) : ∃ f', StepsBy c (fun v => v = u) f f' ∧ f'.pc u = .idle := by
  obtain ⟨a, _, he, base, hR⟩ := rel_refines hcap hf
  have hpc := hR.pcs u
  rw [hu] at hpc
  obtain ⟨_, r, n, hm, _⟩ := hpc
  have h1 : (step c f u SinkConc.good).pc u = .release := by
    unfold step; simp only [hu, read_val hR hm]; exact setPc_self _ _ _
  generalize hf1 : step c f u SinkConc.good = f1 at h1
  have h2 : (step c f1 u SinkConc.good).pc u = .decide := by unfold step; simp only [h1]; exact setPc_self _ _ _
  generalize hf2 : step c f1 u SinkConc.good = f2 at h2
  by_cases hmk : c.mark ≤ f2.size
  · have h3 : (step c f2 u SinkConc.good).pc u = .async := by
      unfold step; simp only [h2]; rw [hl]; simp only [Bool.false_eq_true, if_false]; rw [if_pos hmk]; exact setPc_self _ _ _
    generalize hf3 : step c f2 u SinkConc.good = f3 at h3
    have h4 : (step c f3 u SinkConc.good).pc u = .idle := by
      unfold step; simp only [h3]; rw [hl]; simp only [Bool.false_eq_true, if_false]; exact setPc_self _ _ _
    refine ⟨_, .more u SinkConc.good rfl ?_, h4⟩
    rw [hf1]; refine .more u SinkConc.good rfl ?_
    rw [hf2]; refine .more u SinkConc.good rfl ?_
    rw [hf3]; exact .more u SinkConc.good rfl (.refl _)
  · have h3 : (step c f2 u SinkConc.good).pc u = .idle := by
      unfold step; simp only [h2]; rw [hl]; simp only [Bool.false_eq_true, if_false]; rw [if_neg hmk]; exact setPc_self _ _ _
    refine ⟨_, .more u SinkConc.good rfl ?_, h3⟩
    rw [hf1]; refine .more u SinkConc.good rfl ?_
    rw [hf2]; exact .more u SinkConc.good rfl (.refl _)

/-! ## a full queue -/

theorem size_mono {cap : Nat} {t : Tid} {k : Nat} {s : Ring.St Event} (h : Jam cap t k s) (u : Tid) (hu : u ≠ t) :
    s.buf.size ≤ (Ring.tick s u).buf.size := by
  obtain ⟨q, hI⟩ := h.inv
  have hslot := Ring.constructing_slot h.busy
  have hnc : ∀ a, s.pc u ≠ .getCount a := by
    intro a ha
    have hp := hI.pcs u
    rw [ha] at hp
    exact hu (hI.uniqT u t k (by rw [ha]; exact congrArg some hp.1) hslot)
  unfold Ring.tick
  cases hp : s.pc u <;> first
    | exact absurd hp (hnc _)
    | (dsimp only; (repeat' split) <;> first | exact Nat.le_refl _ | exact Nat.le_succ _)

/-- `u` is somewhere in the loop of `push`, with its event not stored -/
def Retrying (e : Event) (u : Tid) (f : St) : Prop :=
  f.pc u = .put e ∨ (f.pc u = .putIn e ∧ (f.ring.pc u = .putSpin e ∨ f.ring.pc u = .putCheck e ∨ f.ring.pc u = .putFull e)) ∨
    f.pc u = .enter (.retry e) ∨ f.pc u = .get (.retry e) ∨ f.pc u = .getIn (.retry e)

theorem retrying_busy {e : Event} {u : Tid} {f : St} (h : Retrying e u f) : f.pc u ≠ .idle := by
  rcases h with h | ⟨h, _⟩ | h | h | h <;> rw [h] <;> simp

theorem step_ring_pc_other (c : Cfg) (s : St) {t u : Tid} (ch : Ch) (hu : u ≠ t) : (step c s t ch).ring.pc u = s.ring.pc u := by
  rcases step_ring_cases c s t ch with h | ⟨x, h⟩ | ⟨i, h⟩ | ⟨_, h⟩ <;> rw [h]
  · exact call_other _ _ hu
  · rw [Ring.drop_pc]
  · exact tick_other _ hu

theorem retrying_step {c : Cfg} {o : Bool} (hcap : 0 < c.capacity) {t : Tid} {k : Nat} {f : St} (hf : Reach c o f)
    (hj : Jam c.capacity t k f.ring) (hs : f.ring.buf.size = c.capacity) {u : Tid} {e : Event} (ch : Ch) (h : Retrying e u f) :
    Retrying e u (step c f u ch) := by
  obtain ⟨a, _, _, base, hR⟩ := rel_refines hcap hf
  have hpc := hR.pcs u
  rcases h with h | ⟨h, hr⟩ | h | h | h
  · have hi : f.ring.pc u = .idle := by rw [h] at hpc; exact (hpc.of_simple rfl).1
    refine .inr (.inl ⟨?_, .inl ?_⟩)
    · unfold step; simp only [h]; exact setPc_self _ _ _
    · unfold step; simp only [h]; show (Ring.call f.ring u _).pc u = _; unfold Ring.call; simp only [hi]; simp [upd]
  · have hm : mine f.ring u = [] := by rw [h] at hpc; exact hpc.1
    rcases hr with hr | hr | hr
    · have ht : (Ring.tick f.ring u).pc u = .putSpin e ∨ (Ring.tick f.ring u).pc u = .putCheck e := by
        unfold Ring.tick; simp only [hr]; split
        · exact .inl hr
        · exact .inr (by simp [upd])
      have ho : outside ((Ring.tick f.ring u).pc u) = false := by rcases ht with ht | ht <;> rw [ht] <;> rfl
      have hst : step c f u ch = { f with ring := Ring.tick f.ring u } := by
        unfold step; simp only [h]; rw [ho]; simp
      rw [hst]
      exact .inr (.inl ⟨h, ht.elim .inl (fun x => .inr (.inl x))⟩)
    · have hpush := hR.inv.pushEq (t := u) (by rw [hr]; rfl) (by rw [hr]; rfl)
      have hpop := hR.inv.popEq (t := u) (by rw [hr]; rfl) (by rw [hr]; rfl)
      have hfull : f.ring.buf.popIdx = f.ring.buf.pushIdx := by
        have := hR.inv.baseLt
        rw [hpush, hpop, hs]; unfold w; rw [if_neg (by omega)]; omega
      have ht : (Ring.tick f.ring u).pc u = .putFull e := by
        unfold Ring.tick; simp only [hr]
        rw [if_pos ⟨hfull, by omega⟩]; simp [upd]
      have hst : step c f u ch = { f with ring := Ring.tick f.ring u } := by
        unfold step; simp only [h]; rw [ht]; simp [outside]
      rw [hst]
      exact .inr (.inl ⟨h, .inr (.inr ht)⟩)
    · have ht : (Ring.tick f.ring u).pc u = .idle := by unfold Ring.tick; simp only [hr]; simp [upd]
      have hn : hasRef (Ring.tick f.ring u) u = false := hasRef_false (by rw [tick_mine, hm, hr]; rfl)
      refine .inr (.inr (.inl ?_))
      unfold step; simp only [h]; rw [ht, hn]
      simp only [outside, if_true, Bool.false_eq_true, if_false]
      exact setPc_self _ _ _
  · unfold step; simp only [h]
    split
    · exact .inl (setPc_self _ _ _)
    · exact .inr (.inr (.inr (.inl (setPc_self _ _ _))))
  · unfold step; simp only [h]
    exact .inr (.inr (.inr (.inr (setPc_self _ _ _))))
  · have hin := jam_stays hj u (getIn_inside hcap hf h)
    have ho : outside ((Ring.tick f.ring u).pc u) = false := by
      generalize (Ring.tick f.ring u).pc u = p at hin
      cases p <;> first | rfl | exact hin.elim
    have hst : step c f u ch = { f with ring := Ring.tick f.ring u } := by unfold step; simp only [h]; rw [ho]; simp
    rw [hst]
    exact .inr (.inr (.inr (.inr h)))

theorem others_jam {c : Cfg} {t : Tid} {k : Nat} {f f' : St} (hj : Jam c.capacity t k f.ring) (h : Others c t f f') :
    Jam c.capacity t k f'.ring := by
  obtain ⟨as, ha, hx⟩ := others_asleep h
  rw [hx]; exact (hj.exec as ha).1

theorem full_stays {c : Cfg} {t : Tid} {k : Nat} {f f' : St} (hj : Jam c.capacity t k f.ring) (hs : f.ring.buf.size = c.capacity)
    (h : Others c t f f') : f'.ring.buf.size = c.capacity := by
  induction h with
  | refl => exact hs
  | call u x _ _ _ _ ih => exact ih
  | destroy u _ _ _ _ ih => exact ih
  | @step f' u ch hs hu ih =>
    have hj' := others_jam hj hs
    obtain ⟨q, hI'⟩ := (others_jam hj (.step u ch hs hu)).inv
    have hle := hI'.sizeLe
    rcases step_ring_cases c f' u ch with h | ⟨x, h⟩ | ⟨i, h⟩ | ⟨_, h⟩ <;> rw [h] at hle ⊢
    · exact ih
    · unfold Ring.call; split <;> exact ih
    · unfold Ring.drop; split <;> exact ih
    · have := size_mono hj' u hu
      omega

theorem retrying_stays {c : Cfg} {o : Bool} (hcap : 0 < c.capacity) {t : Tid} {k : Nat} {f f' : St} (hf : Reach c o f)
    (hj : Jam c.capacity t k f.ring) (hs : f.ring.buf.size = c.capacity) {u : Tid} {e : Event} (hu : Retrying e u f)
    (h : Others c t f f') : Retrying e u f' := by
  induction h with
  | refl => exact hu
  | @call f' v x _ h1 h2 _ ih =>
    have hne : u ≠ v := fun hx => retrying_busy ih (by rw [hx]; exact h2)
    have hp : (setPc f' v (startPC x)).pc u = f'.pc u := by show upd _ _ _ _ = _; rw [upd, if_neg hne]
    unfold Retrying at ih ⊢
    rw [hp]; exact ih
  | @destroy f' v _ h1 h2 h3 ih =>
    have hne : u ≠ v := fun hx => retrying_busy ih (h3 u (by rw [hx]; exact h1))
    have hp : (setPc { f' with owner := some v } v .dStart).pc u = f'.pc u := by show upd _ _ _ _ = _; rw [upd, if_neg hne]
    unfold Retrying at ih ⊢
    rw [hp]; exact ih
  | @step f' v ch hs' hv ih =>
    by_cases huv : u = v
    · subst huv
      exact retrying_step hcap (others_reach hf hs') (others_jam hj hs') (full_stays hj hs hs') ch ih
    · unfold Retrying at ih ⊢
      rw [step_pc_other c f' ch huv, step_ring_pc_other c f' ch huv]; exact ih

/-! ## a call made while the message is being formatted, by the same thread -/

theorem nested_stays {c : Cfg} {o : Bool} (hcap : 0 < c.capacity) {t : Tid} {k : Nat} {u : Tid} (hut : u ≠ t) {f f' : St}
    (h : StepsBy c (fun v => v = u) f f') : Reach c o f → Jam c.capacity t k f.ring →
    ((f.pc u = .enter .done ∧ f.flag = false) ∨ f.pc u = .get .done ∨ f.pc u = .getIn .done) → f'.pc u ≠ .idle := by
  induction h with
  | refl f => rintro _ _ (⟨h, _⟩ | h | h) <;> rw [h] <;> simp
  | @more f f' v ch hv _ ih =>
    subst hv
    intro hf hj h
    have hj' : Jam c.capacity t k (step c f v ch).ring := others_jam hj (.step v ch .refl hut)
    refine ih (.next hf (.step f v ch)) hj' ?_
    rcases h with ⟨h, hfl⟩ | h | h
    · right; left
      unfold step; simp only [h]; rw [hfl]; simp only [Bool.false_eq_true, if_false]; exact setPc_self _ _ _
    · right; right
      unfold step; simp only [h]; exact setPc_self _ _ _
    · right; right
      exact stuck_stays hcap hf hj (.step v ch .refl hut) h

end SinkFull
end Soralog
