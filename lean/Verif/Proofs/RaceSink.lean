import Verif.Proofs.Race
import Verif.Proofs.SinkFull
/-!
# The sinks respect their flags
-/
namespace Soralog
namespace Race
open Ring (inCS slotOf Inv)
open SinkConc (Cfg Ch workerTid)
open SinkFull (St PC step setPc R PCR abs mine)

/-- between `test_and_set` and `clear` of `flush_in_progress_` -/
def body : PC → Bool
  | .get _ | .getIn _ | .uncount _ | .unref _ _ | .write _ _ | .casFlush _ | .sync _ | .casRotate _ | .reopen _ | .leave _
  | .sCall _ | .sUncount _ | .sUnref _ | .sClear _ => true
  | _ => false

theorem body_abs {c : Cfg} {rp : Ring.PC Event} {ms : List (Ring.Ref Event)} {at_ : Nat → Nat → Prop} {fp : PC} {ap : SinkConc.PC}
    (h : PCR c rp ms at_ fp ap) : body fp = ap.inBody := by
  cases fp
  case putIn e => rcases h with ⟨_, ⟨_, h⟩ | ⟨_, h⟩ | ⟨_, _, _, h, _⟩⟩ <;> subst h <;> rfl
  case getIn k =>
    rcases h with ⟨_, ⟨_, h⟩ | ⟨_, h⟩ | ⟨_, _, _, h⟩⟩ <;> subst h
    · rfl
    · exact (SinkConc.inBody_nothing c k).symm
    · exact (SinkConc.inBody_taking c k _).symm
  case sizeIn =>
    rcases h with ⟨_, ⟨_, h⟩ | ⟨n, _, h⟩⟩ <;> subst h
    · rfl
    · unfold SinkFull.sized; split <;> rfl
  case count => obtain ⟨_, _, _, _, _, h, _⟩ := h; subst h; rfl
  case release => obtain ⟨_, _, _, _, _, h, _⟩ := h; subst h; rfl
  case uncount k => obtain ⟨_, _, _, _, h⟩ := h; subst h; rfl
  case unref k e => obtain ⟨_, _, _, _, h⟩ := h; subst h; rfl
  case sCall k => obtain ⟨_, _, _, _, h⟩ := h; subst h; rfl
  case sUncount k => obtain ⟨_, _, _, _, h⟩ := h; subst h; rfl
  case sUnref k => obtain ⟨_, _, _, _, h⟩ := h; subst h; rfl
  all_goals (have h2 := h.2.2; cases h2; rfl)

/-- points the two models share exactly -/
def plainPC : SinkConc.PC → Option PC
  | .idle => some .idle
  | .dStart => some .dStart
  | .dAsync => some .dAsync
  | .dJoin => some .dJoin
  | .dEnd => some .dEnd
  | .dead => some .dead
  | _ => none

theorem plain_abs {c : Cfg} {rp : Ring.PC Event} {ms : List (Ring.Ref Event)} {at_ : Nat → Nat → Prop} {fp p : PC} {ap : SinkConc.PC}
    (h : PCR c rp ms at_ fp ap) (hp : plainPC ap = some p) : fp = p := by
  cases fp
  case putIn e => rcases h with ⟨_, ⟨_, h⟩ | ⟨_, h⟩ | ⟨_, _, _, h, _⟩⟩ <;> subst h <;> cases hp
  case getIn k =>
    rcases h with ⟨_, ⟨_, h⟩ | ⟨_, h⟩ | ⟨_, _, _, h⟩⟩ <;> subst h
    · cases hp
    · unfold SinkConc.nothing at hp; split at hp <;> cases hp
    · unfold SinkConc.taking at hp; split at hp <;> cases hp
  case sizeIn =>
    rcases h with ⟨_, ⟨_, h⟩ | ⟨n, _, h⟩⟩ <;> subst h
    · cases hp
    · unfold SinkFull.sized at hp; split at hp <;> cases hp
  case count => obtain ⟨_, _, _, _, _, h, _⟩ := h; subst h; cases hp
  case release => obtain ⟨_, _, _, _, _, h, _⟩ := h; subst h; cases hp
  case uncount k => obtain ⟨_, _, _, _, h⟩ := h; subst h; cases hp
  case unref k e => obtain ⟨_, _, _, _, h⟩ := h; subst h; cases hp
  case sCall k => obtain ⟨_, _, _, _, h⟩ := h; subst h; cases hp
  case sUncount k => obtain ⟨_, _, _, _, h⟩ := h; subst h; cases hp
  case sUnref k => obtain ⟨_, _, _, _, h⟩ := h; subst h; cases hp
  all_goals (have h2 := h.2.2; cases h2; first | (cases hp; rfl) | cases hp)

theorem step_pc_other (c : Cfg) (s : St) (t : Tid) (ch : Ch) (u : Tid) (h : u ≠ t) : (step c s t ch).pc u = s.pc u := by
  unfold step
  cases hp : s.pc t <;> dsimp only <;> (repeat' split) <;> simp [setPc, upd, h]

theorem step_owner (c : Cfg) (s : St) (t : Tid) (ch : Ch) : (step c s t ch).owner = s.owner := by
  unfold step
  cases hp : s.pc t <;> dsimp only <;> (repeat' split) <;> simp [setPc]

/-- a thread that has not terminated and is not idle is the owner or the worker, once the destructor has started -/
theorem actors {c : Cfg} {o : Bool} (hcap : 0 < c.capacity) {s : St} (hr : SinkFull.Reach c o s) {d : Tid} (hd : s.owner = some d) :
    d ≠ workerTid ∧ (∀ u, u ≠ workerTid → u ≠ d → s.pc u = .idle) ∧
      (c.latency0 = false → s.pc d = .dStart ∨ s.pc d = .dAsync ∨ s.pc d = .dJoin ∨ s.pc d = .dEnd ∨ s.pc d = .dead) := by
  obtain ⟨put, taken, phase, held, apc, base, ha, hR⟩ := SinkFull.refines hcap hr
  obtain ⟨h1, _, h3⟩ := (SinkConc.roles_reach ha).owner d hd
  refine ⟨h1, fun u hu hud => plain_abs (hR.pcs u) (by rw [show apc u = .idle from h3 u hu hud]; rfl), fun hl => ?_⟩
  rcases (SinkConc.final_reach ha).own d hd hl with h | ⟨_, h | h | h | h⟩
  · exact .inl (plain_abs (hR.pcs d) (by rw [show apc d = .dStart from h]; rfl))
  · exact .inr (.inl (plain_abs (hR.pcs d) (by rw [show apc d = .dAsync from h]; rfl)))
  · exact .inr (.inr (.inl (plain_abs (hR.pcs d) (by rw [show apc d = .dJoin from h]; rfl))))
  · exact .inr (.inr (.inr (.inl (plain_abs (hR.pcs d) (by rw [show apc d = .dEnd from h]; rfl)))))
  · exact .inr (.inr (.inr (.inr (plain_abs (hR.pcs d) (by rw [show apc d = .dead from h]; rfl)))))

theorem lat0 {c : Cfg} {o : Bool} {s : St} (hr : SinkFull.Reach c o s) (hl : c.latency0 = true) : s.pc workerTid = .wExit := by
  induction hr with
  | init => simp [SinkFull.init, hl]
  | @next s s' _ he ih =>
    cases he with
    | call t ht hi hd call => show upd _ _ _ _ = _; rw [upd, if_neg (Ne.symm ht)]; exact ih
    | destroy t ht hd hi => show upd _ _ _ _ = _; rw [upd, if_neg (Ne.symm ht)]; exact ih
    | step t ch =>
      by_cases e : workerTid = t
      · subst e; unfold step; simp only [ih]
      · rw [step_pc_other c s t ch _ e]; exact ih

/-- the trace part of the invariant -/
structure Good (s : St) (tr : Trace) : Prop where
  disc : Disc tr
  ring : RingHeld s.ring tr
  flush : ∀ t, held .flush tr = some t ↔ body (s.pc t) = true

theorem held_ring {tr l : Trace} (h : ∀ e ∈ l, ringEv e.2 = true) : held .flush (tr ++ l) = held .flush tr := by
  induction l generalizing tr with
  | nil => rw [List.append_nil]
  | cons x l ih =>
    have : tr ++ x :: l = (tr ++ [x]) ++ l := by simp
    rw [this, ih (fun e he => h e (List.mem_cons_of_mem _ he))]
    have hx := h x List.mem_cons_self
    obtain ⟨t, e⟩ := x
    rw [held_snoc]
    cases e with
    | acquire f => cases f <;> first | rfl | cases hx
    | release f => cases f <;> first | rfl | cases hx
    | _ => rfl

theorem good_nil {s s' : St} {tr : Trace} (h : Good s tr) (hr : s'.ring = s.ring) (hb : ∀ u, body (s'.pc u) = body (s.pc u)) :
    Good s' (tr ++ []) := by
  rw [List.append_nil]
  exact ⟨h.disc, hr ▸ h.ring, fun u => by rw [hb]; exact h.flush u⟩

theorem good_ring {s s' : St} {tr l : Trace} {t : Tid} (h : Good s tr) (hx : Ext s'.ring tr l t) (hb : ∀ u, body (s'.pc u) = body (s.pc u)) :
    Good s' (tr ++ l) :=
  ⟨hx.disc, hx.held, fun u => by rw [held_ring (fun e he => (hx.only e he).2), hb]; exact h.flush u⟩

theorem good_access {s s' : St} {tr : Trace} {t : Tid} {e : Ev} (h : Good s tr)
    (he : e = .read .staging ∨ e = .write .staging ∨ e = .read .stream ∨ e = .write .stream)
    (hbt : body (s.pc t) = true) (hr : s'.ring = s.ring) (hb : ∀ u, body (s'.pc u) = body (s.pc u)) : Good s' (tr ++ [(t, e)]) := by
  have ok : Ok tr t e := by rcases he with rfl | rfl | rfl | rfl <;> exact fun _ e => by cases e; exact (h.flush t).2 hbt
  have hh : ∀ f, held f (tr ++ [(t, e)]) = held f tr := fun f => by rw [held_snoc]; rcases he with rfl | rfl | rfl | rfl <;> rfl
  refine ⟨.snoc h.disc ok, ⟨fun u => ?_, fun k u => ?_⟩, fun u => ?_⟩
  · rw [hh, hr]; exact h.ring.lock u
  · rw [hh, hr]; exact h.ring.node k u
  · rw [hh, hb]; exact h.flush u

theorem good_silent {s s' : St} {tr : Trace} {t : Tid} {e : Ev} (h : Good s tr) (he : e = .join ∨ e = .destroy) (hr : s'.ring = s.ring)
    (hb : ∀ u, body (s'.pc u) = body (s.pc u)) : Good s' (tr ++ [(t, e)]) := by
  have ok : Ok tr t e := by rcases he with rfl | rfl <;> trivial
  have hh : ∀ f, held f (tr ++ [(t, e)]) = held f tr := fun f => by rw [held_snoc]; rcases he with rfl | rfl <;> rfl
  refine ⟨.snoc h.disc ok, ⟨fun u => ?_, fun k u => ?_⟩, fun u => ?_⟩
  · rw [hh, hr]; exact h.ring.lock u
  · rw [hh, hr]; exact h.ring.node k u
  · rw [hh, hb]; exact h.flush u

theorem upd_body {s : St} {t : Tid} {p : PC} (h : body p = body (s.pc t)) (u : Tid) : body (upd s.pc t p u) = body (s.pc u) := by
  unfold upd; split
  · rename_i e; rw [e]; exact h
  · rfl

theorem findIdx_mine {l : List (Ring.Ref Event)} {p : Ring.Ref Event → Bool} {x : Ring.Ref Event} {m : List (Ring.Ref Event)}
    (h : l.filter p = x :: m) : l[l.findIdx p]? = some x := by
  induction l with
  | nil => cases h
  | cons y l ih =>
    by_cases hy : p y = true
    · rw [List.filter_cons_of_pos hy] at h
      cases h
      simp [List.findIdx_cons, hy]
    · rw [List.filter_cons_of_neg hy] at h
      have : (y :: l).findIdx p = l.findIdx p + 1 := by simp [List.findIdx_cons, Bool.eq_false_iff.2 hy]
      rw [this, List.getElem?_cons_succ]
      exact ih h

theorem own {r : Ring.St Event} {t : Tid} {x : Ring.Ref Event} (h : mine r t = [x]) :
    r.refs[r.refs.findIdx (SinkFull.isMine t)]? = some x ∧ x.owner = t :=
  ⟨findIdx_mine h, (SinkFull.mine_mem (by rw [h]; exact List.mem_cons_self)).2⟩

theorem ownRead_ext {r : Ring.St Event} {t : Tid} {x : Ring.Ref Event} (h : mine r t = [x]) {tr : Trace} (hd : Disc tr) (hh : RingHeld r tr) :
    Ext r tr (ownRead r t) t := by
  obtain ⟨h1, h2⟩ := own h
  have := read_ext h1 hd hh
  rw [h2] at this
  exact this

theorem body_after (k : SinkConc.Ret) : body (SinkFull.afterFlush k) = false := by cases k <;> rfl

/-- every step other than the last one of the destructor respects the flags -/
theorem good_step {c : Cfg} {o : Bool} (hcap : 0 < c.capacity) {s : St} (hr : SinkFull.Reach c o s) {tr : Trace} (h : Good s tr) (t : Tid)
    (ch : Ch) (hne : s.pc t ≠ .dEnd) :
    Good (step c s t ch) (tr ++ stepEvents c s t ch) ∧ ∀ e ∈ stepEvents c s t ch, e.1 = t := by
  obtain ⟨put, taken, phase, hld, apc, base, ha, hR⟩ := SinkFull.refines hcap hr
  have hpc := hR.pcs t
  have hI := hR.inv
  have hx := SinkConc.excl_reach ha
  have ringTick := tick_ext hI t h.disc h.ring
  have hflag : s.flag = false → held .flush tr = none := by
    intro hf
    cases e : held .flush tr with
    | none => rfl
    | some u =>
      have hb := (h.flush u).1 e
      rw [body_abs (hR.pcs u)] at hb
      have := hx.flag u hb
      rw [show s.flag = true from this] at hf
      cases hf
  have drop : ∀ {x : Ring.Ref Event} (p' : PC), mine s.ring t = [x] → body p' = body (s.pc t) →
      Good (setPc { s with ring := SinkFull.dropRef s.ring t } t p') (tr ++ dropEvents s.ring (s.ring.refs.findIdx (SinkFull.isMine t))) ∧
        ∀ e ∈ dropEvents s.ring (s.ring.refs.findIdx (SinkFull.isMine t)), e.1 = t := by
    intro x p' hm hb
    obtain ⟨h1, h2⟩ := own hm
    have := drop_ext hI h1 h.disc h.ring
    rw [h2] at this
    exact ⟨good_ring (t := t) h this (upd_body hb), fun e he => (this.only e he).1⟩
  unfold step stepEvents
  cases hp : s.pc t
  all_goals rw [hp] at hpc
  all_goals dsimp only
  case dEnd => exact absurd hp hne
  case put e =>
    exact ⟨by rw [List.append_nil]; exact ⟨h.disc, call_held h.ring t (.put e), fun u => by
      show _ ↔ body (upd s.pc t _ u) = true; rw [upd_body (by rw [hp]; rfl)]; exact h.flush u⟩, nofun⟩
  case get k =>
    exact ⟨by rw [List.append_nil]; exact ⟨h.disc, call_held h.ring t .get, fun u => by
      show _ ↔ body (upd s.pc t _ u) = true; rw [upd_body (by rw [hp]; rfl)]; exact h.flush u⟩, nofun⟩
  case wSize =>
    exact ⟨by rw [List.append_nil]; exact ⟨h.disc, call_held h.ring t .size, fun u => by
      show _ ↔ body (upd s.pc t _ u) = true; rw [upd_body (by rw [hp]; rfl)]; exact h.flush u⟩, nofun⟩
  case putIn e =>
    refine ⟨?_, fun e he => (ringTick.only e he).1⟩
    split
    · split <;> exact good_ring h ringTick (upd_body (by rw [hp]; rfl))
    · exact good_ring h ringTick (fun _ => rfl)
  case getIn k =>
    refine ⟨?_, fun e he => (ringTick.only e he).1⟩
    split
    · split
      · exact good_ring h ringTick (upd_body (by rw [hp]; unfold SinkFull.taking; split <;> rfl))
      · exact good_ring h ringTick (upd_body (by rw [hp]; unfold SinkFull.nothing; split <;> rfl))
    · exact good_ring h ringTick (fun _ => rfl)
  case sizeIn =>
    refine ⟨?_, fun e he => (ringTick.only e he).1⟩
    split
    · exact good_ring h ringTick (upd_body (by rw [hp]; split <;> rfl))
    · exact good_ring h ringTick (fun _ => rfl)
  case count =>
    obtain ⟨h1, r, n, h2, h3, h4, h5⟩ := hpc
    have := ownRead_ext h2 h.disc h.ring
    refine ⟨?_, fun e he => (this.only e he).1⟩
    rw [SinkFull.read_val hR h2]
    exact good_ring h this (upd_body (by rw [hp]; rfl))
  case release =>
    obtain ⟨h1, r, n, h2, h3, h4, h5⟩ := hpc
    exact drop _ h2 (by rw [hp]; rfl)
  case unref k e =>
    obtain ⟨h1, r, h2, h3, h4⟩ := hpc
    exact drop _ h2 (by rw [hp]; rfl)
  case sUnref k =>
    obtain ⟨h1, r, h2, h3, h4⟩ := hpc
    exact drop _ h2 (by rw [hp]; rfl)
  case sUncount k =>
    obtain ⟨h1, r, h2, h3, h4⟩ := hpc
    have := ownRead_ext h2 h.disc h.ring
    refine ⟨?_, fun e he => (this.only e he).1⟩
    rw [SinkFull.read_val hR h2]
    exact good_ring h this (upd_body (by rw [hp]; rfl))
  case uncount k =>
    obtain ⟨h1, r, h2, h3, h4⟩ := hpc
    have hx := ownRead_ext h2 h.disc h.ring
    refine ⟨?_, fun e he => ?_⟩
    · rw [SinkFull.read_val hR h2, ← List.append_assoc]
      have h' : Good s (tr ++ ownRead s.ring t) := good_ring h hx (fun _ => rfl)
      exact good_access h' (.inr (.inl rfl)) (by rw [hp]; rfl) rfl (upd_body (by rw [hp]; rfl))
    · rcases List.mem_append.1 he with he | he
      · exact (hx.only e he).1
      · rw [List.mem_singleton] at he; subst he; rfl
  case sCall k =>
    obtain ⟨h1, r, h2, h3, h4⟩ := hpc
    have hx := ownRead_ext h2 h.disc h.ring
    refine ⟨?_, fun e he => ?_⟩
    · rw [SinkFull.read_val hR h2, ← List.append_assoc]
      have h' : Good s (tr ++ ownRead s.ring t) := good_ring h hx (fun _ => rfl)
      exact good_access h' (.inr (.inl rfl)) (by rw [hp]; rfl) rfl (upd_body (by rw [hp]; rfl))
    · rcases List.mem_append.1 he with he | he
      · exact (hx.only e he).1
      · rw [List.mem_singleton] at he; subst he; rfl
  case enter k =>
    by_cases hf : s.flag = true
    · rw [if_pos hf, if_pos hf]
      exact ⟨good_nil h rfl (upd_body (by rw [hp]; exact body_after k)), nofun⟩
    · rw [if_neg hf, if_neg hf]
      have hn := hflag (Bool.eq_false_iff.2 hf)
      refine ⟨⟨.snoc h.disc hn, ⟨fun u => ?_, fun k u => ?_⟩, fun u => ?_⟩, by simp⟩
      · rw [held_snoc]; exact h.ring.lock u
      · rw [held_snoc]; exact h.ring.node k u
      · rw [held_snoc]
        show (if Flag.flush = Flag.flush then some t else _) = some u ↔ body (upd s.pc t _ u) = true
        rw [if_pos rfl]
        by_cases e : u = t
        · subst e; rw [Ring.upd_same]; exact ⟨fun _ => rfl, fun _ => rfl⟩
        · rw [Ring.upd_ne _ _ _ _ e, ← h.flush u, hn]
          exact ⟨fun h => absurd (Option.some.inj h).symm e, nofun⟩
  case leave k =>
    have hb : held .flush tr = some t := (h.flush t).2 (by rw [hp]; rfl)
    refine ⟨⟨.snoc h.disc hb, ⟨fun u => ?_, fun k u => ?_⟩, fun u => ?_⟩, by simp⟩
    · rw [held_snoc]; exact h.ring.lock u
    · rw [held_snoc]; exact h.ring.node k u
    · rw [held_snoc]
      show (if Flag.flush = Flag.flush then none else _) = some u ↔ body (upd s.pc t _ u) = true
      rw [if_pos rfl]
      refine ⟨nofun, fun hu => ?_⟩
      by_cases e : u = t
      · subst e; rw [Ring.upd_same, body_after] at hu; cases hu
      · rw [Ring.upd_ne _ _ _ _ e, ← h.flush u, hb] at hu
        exact absurd (Option.some.inj hu).symm e
  case write k e =>
    cases e with
    | none => exact ⟨good_nil h rfl (upd_body (by rw [hp]; rfl)), nofun⟩
    | some e =>
      dsimp only
      by_cases ho : s.isOpen = true
      · rw [if_pos ho, if_pos ho]
        refine ⟨?_, by simp⟩
        have : tr ++ [(t, GEv.read .staging), (t, GEv.write .stream)] = (tr ++ [(t, GEv.read .staging)]) ++ [(t, GEv.write .stream)] := by simp
        rw [this]
        have h' : Good s (tr ++ [(t, GEv.read .staging)]) := good_access h (.inl rfl) (by rw [hp]; rfl) rfl (fun _ => rfl)
        exact good_access h' (.inr (.inr (.inr rfl))) (by rw [hp]; rfl) rfl (upd_body (by rw [hp]; rfl))
      · rw [if_neg ho, if_neg ho]
        exact ⟨good_nil h rfl (upd_body (by rw [hp]; rfl)), nofun⟩
  case sync k => exact ⟨good_access h (.inr (.inr (.inr rfl))) (by rw [hp]; rfl) rfl (upd_body (by rw [hp]; rfl)), by simp⟩
  case reopen k =>
    refine ⟨?_, by simp⟩
    split <;> exact good_access h (.inr (.inr (.inr rfl))) (by rw [hp]; rfl) rfl (upd_body (by rw [hp]; rfl))
  case dJoin =>
    by_cases hw : s.pc workerTid = .wExit
    · rw [if_pos hw, if_pos hw]
      exact ⟨good_silent h (.inl rfl) rfl (upd_body (by rw [hp]; rfl)), by simp⟩
    · rw [if_neg hw, if_neg hw]
      exact ⟨good_nil h rfl (fun _ => rfl), nofun⟩
  all_goals
    refine ⟨?_, nofun⟩
    repeat' split
    all_goals first
      | exact good_nil h rfl (fun _ => rfl)
      | exact good_nil h rfl (upd_body (by rw [hp]; rfl))

theorem run_reach {c : Cfg} {o : Bool} {s : St} {tr : Trace} (h : SinkRun c o s tr) : SinkFull.Reach c o s := by
  induction h with
  | init => exact .init
  | next _ he ih =>
    refine .next ih ?_
    cases he with
    | call t h hi hd call => exact .call _ t h hi hd call
    | step t ch => exact .step _ t ch
    | destroy t h hd hi => exact .destroy _ t h hd hi

/-- what the thread in the destructor knows -/
structure Known (c : Cfg) (s : St) (tr : Trace) : Prop where
  started : ∀ d, s.owner = some d → ∃ j : Nat, tr[j]? = some (d, GEv.destroy) ∧
    ∀ (i : Nat) u a, tr[i]? = some (u, a) → i < j ∨ u = d ∨ u = workerTid
  quiet : c.latency0 = true → ∀ (i : Nat) a, tr[i]? ≠ some (workerTid, a)
  joined : ∀ d, s.owner = some d → c.latency0 = false → s.pc d = .dEnd → s.pc workerTid = .wExit ∧
    ∃ j : Nat, tr[j]? = some (d, GEv.join) ∧ ∀ (i : Nat) a, tr[i]? = some (workerTid, a) → i < j

theorem getElem?_app {tr l : Trace} {i : Nat} {y : Tid × Ev} (h : (tr ++ l)[i]? = some y) : tr[i]? = some y ∨ (tr.length ≤ i ∧ y ∈ l) := by
  rw [List.getElem?_append] at h
  split at h
  · exact .inl h
  · exact .inr ⟨by omega, List.mem_of_getElem? h⟩

theorem lift {tr l : Trace} {i : Nat} {y : Tid × Ev} (h : tr[i]? = some y) : (tr ++ l)[i]? = some y := by
  rw [List.getElem?_append_left (lt_of_some h)]; exact h

theorem known_step {c : Cfg} {o : Bool} (hcap : 0 < c.capacity) {s : St} (hr : SinkFull.Reach c o s) {tr : Trace} (h : Known c s tr) (t : Tid)
    (ch : Ch) (honly : ∀ e ∈ stepEvents c s t ch, e.1 = t) (hne : s.pc t ≠ .dEnd) :
    Known c (step c s t ch) (tr ++ stepEvents c s t ch) := by
  have quietEv : s.pc t = .idle ∨ s.pc t = .wExit → stepEvents c s t ch = [] := by
    rintro (e | e) <;> (unfold stepEvents; rw [e])
  refine ⟨fun d hd => ?_, fun hl i a hi => ?_, fun d hd hl he => ?_⟩
  · rw [step_owner] at hd
    obtain ⟨j, h1, h2⟩ := h.started d hd
    refine ⟨j, lift h1, fun i u a hi => ?_⟩
    rcases getElem?_app hi with hi | ⟨_, hi⟩
    · exact h2 i u a hi
    · have hu : u = t := honly _ hi
      subst hu
      by_cases e1 : u = workerTid
      · exact .inr (.inr e1)
      · by_cases e2 : u = d
        · exact .inr (.inl e2)
        · have := (actors hcap hr hd).2.1 u e1 e2
          rw [quietEv (.inl this)] at hi; cases hi
  · rcases getElem?_app hi with hi | ⟨_, hi⟩
    · exact h.quiet hl i a hi
    · have hu : workerTid = t := honly _ hi
      rw [quietEv (.inr (by rw [← hu]; exact lat0 hr hl))] at hi; cases hi
  · rw [step_owner] at hd
    obtain ⟨a1, a2, a3⟩ := actors hcap hr hd
    by_cases e : d = t
    · subst e
      have hw : workerTid ≠ d := Ne.symm a1
      rcases a3 hl with hp | hp | hp | hp | hp
      · exfalso; unfold step at he; rw [hp] at he; dsimp only at he; rw [hl] at he; simp [setPc, upd] at he
      · exfalso; unfold step at he; rw [hp] at he; simp [setPc, upd] at he
      · by_cases hx : s.pc workerTid = .wExit
        · have ev : stepEvents c s d ch = [(d, .join)] := by unfold stepEvents; rw [hp]; dsimp only; rw [if_pos hx]
          rw [ev]
          refine ⟨by rw [step_pc_other c s d ch _ hw]; exact hx, tr.length, last, fun i a hi => ?_⟩
          rcases getElem?_snoc hi with hi | ⟨_, hi⟩
          · exact lt_of_some hi
          · cases hi; exact absurd rfl hw
        · exfalso; unfold step at he; rw [hp] at he; dsimp only at he; rw [if_neg hx, hp] at he; cases he
      · exact absurd hp hne
      · exfalso; unfold step at he; rw [hp] at he; dsimp only at he; rw [hp] at he; cases he
    · rw [step_pc_other c s t ch _ e] at he
      obtain ⟨h1, j, h2, h3⟩ := h.joined d hd hl he
      have hw : workerTid = t → stepEvents c s t ch = [] := fun ht => quietEv (.inr (ht ▸ h1))
      refine ⟨?_, j, lift h2, fun i a hi => ?_⟩
      · by_cases ht : workerTid = t
        · rw [← ht]; unfold step; simp only [h1]
        · rw [step_pc_other c s t ch _ ht]; exact h1
      · rcases getElem?_app hi with hi | ⟨_, hi⟩
        · exact h3 i a hi
        · rw [hw (honly _ hi)] at hi; cases hi

/-- after the destructor nothing happens any more -/
def Over (s : St) : Prop := s.owner ≠ none ∧ ∀ t, s.pc t = .idle ∨ s.pc t = .wExit ∨ s.pc t = .dead

theorem over_step {c : Cfg} {s : St} (h : Over s) (t : Tid) (ch : Ch) : step c s t ch = s ∧ stepEvents c s t ch = [] := by
  rcases h.2 t with e | e | e <;> exact ⟨by unfold step; rw [e], by unfold stepEvents; rw [e]⟩

theorem sink_inv {c : Cfg} {o : Bool} (hcap : 0 < c.capacity) {s : St} {tr : Trace} (h : SinkRun c o s tr) :
    (Good s tr ∧ Known c s tr ∧ ∀ t, s.pc t ≠ .dead) ∨ (RaceFree workerTid tr ∧ Over s) := by
  induction h with
  | init =>
    left
    refine ⟨⟨.nil, held_init _, fun t => ?_⟩, ⟨fun d hd => (by cases hd), fun _ i a => by simp, fun d hd => (by cases hd)⟩, fun t => ?_⟩
    · show none = some t ↔ _
      refine ⟨nofun, fun hb => ?_⟩
      simp only [SinkFull.init] at hb
      split at hb
      · split at hb <;> cases hb
      · cases hb
    · simp only [SinkFull.init]; split
      · split <;> nofun
      · nofun
  | @next s s' tr l hrun he ih =>
    have hr := run_reach hrun
    rcases ih with ⟨hg, hk, hdead⟩ | ⟨hrf, ho⟩
    · cases he with
      | call t ht hi hd call =>
        left
        refine ⟨good_nil hg rfl (upd_body (by rw [hi]; cases call <;> rfl)), ?_, fun u => ?_⟩
        · rw [List.append_nil]
          refine ⟨fun d h => ?_, hk.quiet, fun d h => ?_⟩
          · rw [show s.owner = some d from h] at hd; cases hd
          · rw [show s.owner = some d from h] at hd; cases hd
        · show upd s.pc t _ u ≠ _
          unfold upd; split
          · cases call <;> nofun
          · exact hdead u
      | destroy t ht hd hi =>
        left
        refine ⟨good_silent hg (.inr rfl) rfl (upd_body (by rw [hi t ht]; rfl)), ⟨fun d h => ?_, fun hl i a hx => ?_, fun d h hl hx => ?_⟩, fun u => ?_⟩
        · cases h
          refine ⟨tr.length, last, fun i u a hx => ?_⟩
          rcases getElem?_snoc hx with hx | ⟨_, hx⟩
          · exact .inl (lt_of_some hx)
          · cases hx; exact .inr (.inl rfl)
        · rcases getElem?_snoc hx with hx | ⟨_, hx⟩
          · exact hk.quiet hl i a hx
          · cases hx; exact ht rfl
        · cases h
          have hx : upd s.pc t .dStart t = .dEnd := hx
          rw [Ring.upd_same] at hx; cases hx
        · show upd s.pc t _ u ≠ _
          unfold upd; split
          · nofun
          · exact hdead u
      | step t ch =>
        by_cases hend : s.pc t = .dEnd
        · right
          obtain ⟨put, taken, phase, hld, apc, base, ha, hR⟩ := SinkFull.refines hcap hr
          have hR' := SinkConc.roles_reach ha
          have happ : apc t = .dEnd := by
            have := hR.pcs t
            rw [hend] at this
            exact (this.of_simple rfl).2.2
          have htw : t ≠ workerTid := by
            rintro rfl
            have := hR'.worker
            rw [show (abs s put taken phase hld apc).pc workerTid = .dEnd from happ] at this
            cases this
          have hown : s.owner = some t := by
            cases e : s.owner with
            | none =>
              have := hR'.clients e t htw
              rw [show (abs s put taken phase hld apc).pc t = .dEnd from happ] at this
              cases this
            | some d =>
              by_cases htd : t = d
              · rw [htd]
              · have := (actors hcap hr e).2.1 t htw htd
                rw [hend] at this; cases this
          obtain ⟨a1, a2, a3⟩ := actors hcap hr hown
          have hwx : s.pc workerTid = .wExit := by
            cases hl : c.latency0 with
            | true => exact lat0 hr hl
            | false => exact (hk.joined t hown hl hend).1
          have hst : ∀ u, (step c s t ch).pc u = upd s.pc t .dead u := by
            intro u; unfold step; rw [hend]; dsimp only; split <;> rfl
          have hev : ∀ e ∈ stepEvents c s t ch, e.1 = t := by
            unfold stepEvents; rw [hend]; dsimp only; split <;> simp <;> (intro a b k _ h1 _; exact h1.symm)
          refine ⟨?_, ?_, fun u => ?_⟩
          · refine raceFree_final (disc_raceFree sinkGuard_total hg.disc) hev fun i u a hi => ?_
            obtain ⟨j, h1, h2⟩ := hk.started t hown
            by_cases hut : u = t
            · exact .inl hut
            · right
              by_cases huw : u = workerTid
              · subst huw
                cases hl : c.latency0 with
                | true => exact absurd hi (hk.quiet hl i a)
                | false =>
                  obtain ⟨_, j', h3, h4⟩ := hk.joined t hown hl hend
                  exact ⟨j', _, .join (h4 i a hi) hi h3, h3⟩
              · rcases h2 i u a hi with h | h | h
                · exact ⟨j, _, .destroy h hi huw h1, h1⟩
                · exact absurd h hut
                · exact absurd h huw
          · rw [step_owner, hown]; nofun
          · rw [hst]
            by_cases hut : u = t
            · subst hut; rw [Ring.upd_same]; exact .inr (.inr rfl)
            · rw [Ring.upd_ne _ _ _ _ hut]
              by_cases huw : u = workerTid
              · subst huw; exact .inr (.inl hwx)
              · exact .inl (a2 u huw hut)
        · left
          obtain ⟨h1, h2⟩ := good_step hcap hr hg t ch hend
          refine ⟨h1, known_step hcap hr hk t ch h2 hend, fun u => ?_⟩
          by_cases hut : u = t
          · subst hut
            intro hx
            unfold step at hx
            have hd := hdead u
            cases hp : s.pc u
            all_goals rw [hp] at hx hd hend
            all_goals dsimp only at hx
            case dead => exact hd rfl
            case dEnd => exact hend rfl
            case enter k =>
              split at hx
              · simp [setPc, upd] at hx; cases k <;> cases hx
              · simp [setPc, upd] at hx
            case leave k => simp [setPc, upd] at hx; cases k <;> cases hx
            case getIn k =>
              have e1 : SinkFull.taking c k ≠ .dead := by unfold SinkFull.taking; split <;> nofun
              have e2 : SinkFull.nothing c k ≠ .dead := by unfold SinkFull.nothing; split <;> nofun
              split at hx
              · split at hx
                · simp [setPc, upd] at hx; exact e1 hx
                · simp [setPc, upd] at hx; exact e2 hx
              · dsimp only at hx; rw [hp] at hx; cases hx
            case sizeIn =>
              split at hx
              · simp only [setPc, upd, if_pos] at hx; split at hx <;> cases hx
              · dsimp only at hx; rw [hp] at hx; cases hx
            case write k e =>
              cases e with
              | none => simp [setPc, upd] at hx
              | some e => dsimp only at hx; split at hx <;> simp [setPc, upd] at hx
            all_goals (repeat' split at hx) <;> simp [setPc, upd, hp] at hx
          · rw [step_pc_other c s t ch u hut]; exact hdead u
    · right
      cases he with
      | call t ht hi hd call => exact absurd hd ho.1
      | destroy t ht hd hi => exact absurd hd ho.1
      | step t ch =>
        obtain ⟨h1, h2⟩ := over_step (c := c) ho t ch
        rw [h1, h2, List.append_nil]
        exact ⟨hrf, ho⟩

theorem sink_raceFree {c : Cfg} {o : Bool} (hcap : 0 < c.capacity) {s : St} {tr : Trace} (h : SinkRun c o s tr) : RaceFree workerTid tr := by
  rcases sink_inv hcap h with ⟨h, _⟩ | ⟨h, _⟩
  · exact disc_raceFree sinkGuard_total h.disc
  · exact h

end Race
end Soralog
