import Verif.Model.SinkFull
import Verif.Proofs.RingProgress
import Verif.Proofs.SinkConcLive
/-!
# The sink on the real queue is a refinement of the sink on an atomic queue

Every step of `SinkFull` is a step of `SinkConc`, or changes nothing there.  The accesses of `put`, `get` and `size` at which something
happens in `SinkConc` are their linearisation points.
-/
namespace Soralog
namespace SinkFull
open SinkConc (Cfg Ret Ch Call workerTid)
open Ring (w slotOf building inCS)

/-- the live `NodeRef`s of a thread -/
def mine (r : Ring.St Event) (t : Tid) : List (Ring.Ref Event) := r.refs.filter (isMine t)

theorem isMine_iff {t : Tid} {r : Ring.Ref Event} : isMine t r = true ↔ r.owner = t := by simp [isMine]

theorem hasRef_false {r : Ring.St Event} {t : Tid} (h : mine r t = []) : hasRef r t = false := by
  unfold hasRef
  unfold mine at h
  rw [List.any_eq_false]
  intro x hx hm
  have : x ∈ r.refs.filter (isMine t) := List.mem_filter.2 ⟨hx, hm⟩
  rw [h] at this; cases this

theorem hasRef_true {r : Ring.St Event} {t : Tid} {x : Ring.Ref Event} {l : List (Ring.Ref Event)} (h : mine r t = x :: l) :
    hasRef r t = true := by
  unfold hasRef
  unfold mine at h
  have : x ∈ r.refs.filter (isMine t) := by rw [h]; exact List.mem_cons_self
  exact List.any_eq_true.2 ⟨x, (List.mem_filter.1 this).1, (List.mem_filter.1 this).2⟩

theorem mine_mem {r : Ring.St Event} {t : Tid} {x : Ring.Ref Event} (h : x ∈ mine r t) : x ∈ r.refs ∧ x.owner = t :=
  ⟨(List.mem_filter.1 h).1, isMine_iff.1 (List.mem_filter.1 h).2⟩

theorem find_mine {l : List (Ring.Ref Event)} {p : Ring.Ref Event → Bool} {x : Ring.Ref Event} {m : List (Ring.Ref Event)}
    (h : l.filter p = x :: m) : l.find? p = some x := by
  rw [← List.head?_filter, h]; rfl

theorem readRef_eq {r : Ring.St Event} {t : Tid} {x : Ring.Ref Event} {l : List (Ring.Ref Event)} (h : mine r t = x :: l) :
    readRef r t = r.buf.item x.slot := by
  unfold readRef
  rw [find_mine h]; rfl

theorem erase_find {l : List (Ring.Ref Event)} {p : Ring.Ref Event → Bool} {x : Ring.Ref Event} (h : l.filter p = [x]) :
    (l.eraseIdx (l.findIdx p)).filter p = [] ∧ ∀ q : Ring.Ref Event → Bool, q x = false → (l.eraseIdx (l.findIdx p)).filter q = l.filter q := by
  induction l with
  | nil => cases h
  | cons a l ih =>
    by_cases ha : p a = true
    · rw [List.filter_cons_of_pos ha] at h
      have hx : a = x := by injection h
      have hl : l.filter p = [] := by injection h
      rw [List.findIdx_cons, ha]
      simp only [cond_true, List.eraseIdx_zero, List.tail_cons]
      refine ⟨hl, fun q hq => ?_⟩
      rw [List.filter_cons_of_neg (by rw [hx, hq]; simp)]
    · rw [List.filter_cons_of_neg ha] at h
      obtain ⟨h1, h2⟩ := ih h
      have ha' : p a = false := by simpa using ha
      rw [List.findIdx_cons, ha']
      simp only [cond_false, List.eraseIdx_cons_succ]
      refine ⟨by rw [List.filter_cons_of_neg ha]; exact h1, fun q hq => ?_⟩
      by_cases hqa : q a = true
      · rw [List.filter_cons_of_pos hqa, List.filter_cons_of_pos hqa, h2 q hq]
      · rw [List.filter_cons_of_neg hqa, List.filter_cons_of_neg hqa, h2 q hq]

theorem drop_refs (s : Ring.St Event) (i : Nat) : (Ring.drop s i).refs = s.refs.eraseIdx i ∧ (Ring.drop s i).log = s.log ∧
    (Ring.drop s i).pc = s.pc := by
  unfold Ring.drop
  split
  · rename_i h
    refine ⟨?_, rfl, rfl⟩
    rw [List.eraseIdx_of_length_le (List.getElem?_eq_none_iff.1 h)]
  · exact ⟨rfl, rfl, rfl⟩

theorem dropRef_mine {r : Ring.St Event} {t : Tid} {x : Ring.Ref Event} (h : mine r t = [x]) :
    mine (dropRef r t) t = [] ∧ ∀ u, u ≠ t → mine (dropRef r t) u = mine r u := by
  have hx := mine_mem (x := x) (r := r) (t := t) (by rw [h]; exact List.mem_cons_self)
  unfold mine dropRef at *
  rw [(drop_refs r _).1]
  obtain ⟨h1, h2⟩ := erase_find h
  refine ⟨h1, fun u hu => h2 _ ?_⟩
  cases hm : isMine u x with
  | false => rfl
  | true => exact absurd ((isMine_iff.1 hm).symm.trans hx.2) hu

/-- the `NodeRef`s a step of a thread at this point creates -/
def newRefs (t : Tid) : Ring.PC Event → List (Ring.Ref Event)
  | .putBuild v k => [⟨t, k, false, v⟩]
  | .getUnlock k v => [⟨t, k, true, v⟩]
  | _ => []

theorem tick_refs (s : Ring.St Event) (t : Tid) : (Ring.tick s t).refs = s.refs ++ newRefs t (s.pc t) := by
  unfold Ring.tick
  cases hp : s.pc t <;> simp only [newRefs, List.append_nil] <;> (repeat' split) <;> rfl

theorem tick_mine_other (s : Ring.St Event) {t u : Tid} (h : u ≠ t) : mine (Ring.tick s t) u = mine s u := by
  unfold mine
  rw [tick_refs, List.filter_append]
  have : (newRefs t (s.pc t)).filter (isMine u) = [] := by
    cases s.pc t <;> simp [newRefs, isMine] <;> exact fun e => h e.symm
  rw [this, List.append_nil]

theorem tick_mine (s : Ring.St Event) (t : Tid) : mine (Ring.tick s t) t = mine s t ++ newRefs t (s.pc t) := by
  unfold mine
  rw [tick_refs, List.filter_append]
  congr 1
  cases s.pc t <;> simp [newRefs, isMine]

/-- what a step appends to the accepted elements -/
def newPuts : Ring.PC Event → List Event
  | .putCount v _ => [v]
  | _ => []

theorem putsOf_snoc (l : List (Spec.Entry Event)) (x : Spec.Entry Event) :
    Spec.putsOf none (l ++ [x]) = Spec.putsOf none l ++ Spec.putsOf none [x] := by
  simp [Spec.putsOf, List.filterMap_append]

theorem tick_puts {cap : Nat} {s : Ring.St Event} {q : List Event} {base : Nat} (hI : Ring.Inv cap s q base) (t : Tid) :
    Spec.putsOf none (Ring.tick s t).log = Spec.putsOf none s.log ++ newPuts (s.pc t) := by
  have hpk := hI.pcs t
  unfold Ring.tick
  cases hp : s.pc t with
  | putCount v k =>
    rw [hp] at hpk
    dsimp only
    rw [if_pos hpk.2.1]
    exact putsOf_snoc _ _
  | obsRead x =>
    dsimp only [newPuts]
    rw [putsOf_snoc]
    cases x <;> rfl
  | _ =>
    dsimp only [newPuts]
    (repeat' split) <;> first
      | (rw [List.append_nil]; done)
      | ((try dsimp only); rw [putsOf_snoc]; rfl)

theorem call_log (s : Ring.St Event) (t : Tid) (c : Spec.Call Event) : Spec.putsOf none (Ring.call s t c).log = Spec.putsOf none s.log := by
  unfold Ring.call
  split
  · dsimp only; rw [putsOf_snoc]; simp [Spec.putsOf]
  · rfl

theorem call_refs (s : Ring.St Event) (t : Tid) (c : Spec.Call Event) : (Ring.call s t c).refs = s.refs := by
  unfold Ring.call
  split <;> rfl

theorem call_other (s : Ring.St Event) {t u : Tid} (c : Spec.Call Event) (h : u ≠ t) : (Ring.call s t c).pc u = s.pc u := by
  unfold Ring.call
  split
  · show upd _ _ _ _ = _; rw [upd, if_neg h]
  · rfl

/-! ### the abstraction -/

/-- position `n` of the accepted events is in slot `k` -/
structure At (cap : Nat) (put : List Event) (taken base n k : Nat) : Prop where
  lo : taken ≤ n
  hi : n < put.length
  slot : k = w cap base (n - taken)

/-- points at which the thread is outside the queue and has no `NodeRef` -/
def simple : PC → Option SinkConc.PC
  | .idle => some .idle
  | .put e => some (.put e)
  | .decide => some .decide
  | .async => some .async
  | .rotate => some .rotate
  | .enter k => some (.enter k)
  | .get k => some (.get k)
  | .write k e => some (.write k e)
  | .casFlush k => some (.casFlush k)
  | .sync k => some (.sync k)
  | .casRotate k => some (.casRotate k)
  | .reopen k => some (.reopen k)
  | .leave k => some (.leave k)
  | .sClear k => some (.sClear k)
  | .wWait => some .wWait
  | .wCheck => some .wCheck
  | .wSize => some .wSize
  | .wExit => some .wExit
  | .dStart => some .dStart
  | .dAsync => some .dAsync
  | .dJoin => some .dJoin
  | .dEnd => some .dEnd
  | .dead => some .dead
  | _ => none

/-- where `SinkConc` is when the worker has read the size of the queue -/
def sized (n : Nat) : SinkConc.PC := if n = 0 then .wExit else .wWait

/-- how the positions of a thread correspond; `rp`: its position in the queue, `ms`: its `NodeRef`s -/
def PCR (c : Cfg) (rp : Ring.PC Event) (ms : List (Ring.Ref Event)) (at_ : Nat → Nat → Prop) (fp : PC) (ap : SinkConc.PC) : Prop :=
  match fp with
  | .putIn e => ms = [] ∧ ((Ring.phase rp = .called (.put e) ∧ ap = .put e) ∨ (rp = .putFull e ∧ ap = .enter (.retry e)) ∨
      ∃ k n, building rp = some (e, k) ∧ ap = .count n ∧ at_ n k)
  | .count => rp = .idle ∧ ∃ r n, ms = [r] ∧ r.fromGet = false ∧ ap = .count n ∧ at_ n r.slot
  | .release => rp = .idle ∧ ∃ r n, ms = [r] ∧ r.fromGet = false ∧ ap = .release n ∧ at_ n r.slot
  | .getIn k => ms = [] ∧ ((Ring.phase rp = .called .get ∧ ap = .get k) ∨ (rp = .getEmpty ∧ ap = SinkConc.nothing c k) ∨
      ∃ i v, rp = .getUnlock i v ∧ ap = SinkConc.taking c k v)
  | .uncount k => rp = .idle ∧ ∃ r, ms = [r] ∧ r.fromGet = true ∧ ap = .uncount k r.val
  | .unref k e => rp = .idle ∧ ∃ r, ms = [r] ∧ r.fromGet = true ∧ ap = .unref k e
  | .sCall k => rp = .idle ∧ ∃ r, ms = [r] ∧ r.fromGet = true ∧ ap = .sCall k r.val
  | .sUncount k => rp = .idle ∧ ∃ r, ms = [r] ∧ r.fromGet = true ∧ ap = .sUncount k r.val
  | .sUnref k => rp = .idle ∧ ∃ r, ms = [r] ∧ r.fromGet = true ∧ ap = .sUnref k r.val
  | .sizeIn => ms = [] ∧ ((Ring.phase rp = .called .size ∧ ap = .wSize) ∨ ∃ n, rp = .obsUnlock .size n ∧ ap = sized n)
  | p => rp = .idle ∧ ms = [] ∧ simple p = some ap

theorem PCR.of_simple {c : Cfg} {rp : Ring.PC Event} {ms : List (Ring.Ref Event)} {at_ : Nat → Nat → Prop} {p : PC} {ap q : SinkConc.PC}
    (h : PCR c rp ms at_ p ap) (hs : simple p = some q) : rp = .idle ∧ ms = [] ∧ ap = q := by
  cases p <;> first
    | (cases hs; done)
    | (refine ⟨h.1, h.2.1, ?_⟩; have := h.2.2; rw [hs] at this; exact (Option.some.inj this).symm)

theorem PCR.simple_intro {c : Cfg} {rp : Ring.PC Event} {ms : List (Ring.Ref Event)} {at_ : Nat → Nat → Prop} {p : PC} {ap : SinkConc.PC}
    (h1 : rp = .idle) (h2 : ms = []) (hs : simple p = some ap) : PCR c rp ms at_ p ap := by
  cases p <;> first
    | (cases hs; done)
    | exact ⟨h1, h2, hs⟩

/-- does the thread own slot `k`? -/
def Owns (rp : Ring.PC Event) (ms : List (Ring.Ref Event)) (k : Nat) : Prop := slotOf rp = some k ∨ ∃ r ∈ ms, r.slot = k

theorem PCR.mono {c : Cfg} {rp : Ring.PC Event} {ms : List (Ring.Ref Event)} {at_ at' : Nat → Nat → Prop} {p : PC} {ap : SinkConc.PC}
    (h : PCR c rp ms at_ p ap) (hm : ∀ n k, Owns rp ms k → at_ n k → at' n k) : PCR c rp ms at' p ap := by
  cases p with
  | putIn e =>
    obtain ⟨h1, h2⟩ := h
    refine ⟨h1, ?_⟩
    rcases h2 with h2 | h2 | ⟨k, n, h2, h3, h4⟩
    · exact Or.inl h2
    · exact Or.inr (Or.inl h2)
    · exact Or.inr (Or.inr ⟨k, n, h2, h3, hm n k (Or.inl (Ring.building_slot h2)) h4⟩)
  | count =>
    obtain ⟨h1, r, n, h2, h3, h4, h5⟩ := h
    exact ⟨h1, r, n, h2, h3, h4, hm n _ (Or.inr ⟨r, by rw [h2]; exact List.mem_cons_self, rfl⟩) h5⟩
  | release =>
    obtain ⟨h1, r, n, h2, h3, h4, h5⟩ := h
    exact ⟨h1, r, n, h2, h3, h4, hm n _ (Or.inr ⟨r, by rw [h2]; exact List.mem_cons_self, rfl⟩) h5⟩
  | _ => exact h

/-- the state of `SinkConc` -/
def abs (f : St) (put : List Event) (taken : Nat) (phase : Nat → SinkConc.Phase) (held : Bool) (pc : Tid → SinkConc.PC) : SinkConc.St :=
  { put, taken, phase, held, size := f.size, flag := f.flag, needFlush := f.needFlush, needRotate := f.needRotate,
    needFinalize := f.needFinalize, isOpen := f.isOpen, sbuf := f.sbuf, dev := f.dev, gens := f.gens, written := f.written,
    run := f.run, calls := f.calls, owner := f.owner, pc }

structure R (c : Cfg) (f : St) (put : List Event) (taken : Nat) (apc : Tid → SinkConc.PC) (base : Nat) : Prop where
  inv : Ring.Inv c.capacity f.ring (put.drop taken) base
  log : put = Spec.putsOf none f.ring.log
  ub : f.ub = false
  pcs : ∀ t, PCR c (f.ring.pc t) (mine f.ring t) (At c.capacity put taken base) (f.pc t) (apc t)

theorem R.update {c : Cfg} {f f' : St} {put put' : List Event} {taken taken' : Nat} {apc : Tid → SinkConc.PC} {base base' : Nat}
    (h : R c f put taken apc base) (t : Tid) (ap' : SinkConc.PC)
    (inv : Ring.Inv c.capacity f'.ring (put'.drop taken') base') (log : put' = Spec.putsOf none f'.ring.log) (ub : f'.ub = false)
    (hpc : ∀ u, u ≠ t → f'.pc u = f.pc u) (hrp : ∀ u, u ≠ t → f'.ring.pc u = f.ring.pc u)
    (hm : ∀ u, u ≠ t → mine f'.ring u = mine f.ring u)
    (hat : ∀ u, u ≠ t → ∀ n k, Owns (f.ring.pc u) (mine f.ring u) k → At c.capacity put taken base n k → At c.capacity put' taken' base' n k)
    (ht : PCR c (f'.ring.pc t) (mine f'.ring t) (At c.capacity put' taken' base') (f'.pc t) ap') :
    R c f' put' taken' (upd apc t ap') base' := by
  refine ⟨inv, log, ub, fun u => ?_⟩
  by_cases hu : u = t
  · subst hu
    rw [upd, if_pos rfl]; exact ht
  · rw [upd, if_neg hu, hrp u hu, hm u hu, hpc u hu]
    exact (h.pcs u).mono (hat u hu)

theorem upd_self {α : Type} (f : Tid → α) (t : Tid) : upd f t (f t) = f := by
  funext u; unfold upd; split
  · rename_i h; rw [h]
  · rfl

/-- steps that do not touch the queue -/
theorem R.simple {c : Cfg} {f : St} {put : List Event} {taken : Nat} {apc : Tid → SinkConc.PC} {base : Nat}
    (h : R c f put taken apc base) (t : Tid) (f0 : St) (p' : PC) (ap' : SinkConc.PC) {ap : SinkConc.PC} (hring : f0.ring = f.ring)
    (hub : f0.ub = f.ub) (hpc : f0.pc = f.pc) (hs : SinkFull.simple (f.pc t) = some ap) (hs' : SinkFull.simple p' = some ap') :
    R c (setPc f0 t p') put taken (upd apc t ap') base := by
  obtain ⟨h1, h2, _⟩ := (h.pcs t).of_simple hs
  have hr : (setPc f0 t p').ring = f.ring := hring
  refine h.update t ap' (by rw [hr]; exact h.inv) (by rw [hr]; exact h.log) (by rw [← h.ub]; exact hub) ?_ (fun u _ => by rw [hr])
    (fun u _ => by rw [hr]) (fun _ _ _ _ _ hx => hx) ?_
  · intro u hu
    show upd _ _ _ _ = _
    rw [upd, if_neg hu, hpc]
  · rw [hr]
    show PCR c _ _ _ (upd f0.pc t p' t) ap'
    rw [upd, if_pos rfl]
    exact PCR.simple_intro h1 h2 hs'

/-! ### the simulation -/

/-- is the operation of the queue not yet decided? -/
def pending (rp : Ring.PC Event) : Bool :=
  match Ring.phase rp with
  | .called _ => true
  | _ => false

/-- does `SinkConc` make a step too? -/
def shown (f : St) (t : Tid) (ch : Ch) : Bool :=
  match f.pc t with
  | .put _ | .get _ | .wSize | .idle | .wExit | .dead => false
  | .putIn _ | .getIn _ | .sizeIn => pending (f.ring.pc t) && !pending ((Ring.tick f.ring t).pc t)
  | .wWait => ch.timeout
  | .dJoin => decide (f.pc workerTid = .wExit)
  | _ => true

theorem pending_called {rp : Ring.PC Event} {x : Spec.Call Event} (h : Ring.phase rp = .called x) : pending rp = true := by
  unfold pending; rw [h]

theorem pending_done {rp : Ring.PC Event} {x : Spec.Call Event} {y : Spec.Ret Event} (h : Ring.phase rp = .done x y) : pending rp = false := by
  unfold pending; rw [h]

theorem tick_other (s : Ring.St Event) {t u : Tid} (h : u ≠ t) : (Ring.tick s t).pc u = s.pc u := Ring.tick_pc_other s t u h

/-- a step inside the queue that is not a linearisation point of `put` or `get` -/
theorem R.ringStep {c : Cfg} {f : St} {put : List Event} {taken : Nat} {apc : Tid → SinkConc.PC} {base : Nat}
    (h : R c f put taken apc base) (t : Tid) (f' : St) (ap' : SinkConc.PC) (hring : f'.ring = Ring.tick f.ring t)
    (hub : f'.ub = f.ub) (hpc : ∀ u, u ≠ t → f'.pc u = f.pc u)
    (h1 : ∀ v k, f.ring.pc t ≠ .putCount v k) (h2 : ∀ k, f.ring.pc t ≠ .getCount k)
    (ht : PCR c ((Ring.tick f.ring t).pc t) (mine f.ring t ++ newRefs t (f.ring.pc t)) (At c.capacity put taken base) (f'.pc t) ap') :
    R c f' put taken (upd apc t ap') base := by
  have hi := Ring.inv_tick_exact h.inv t
  have e1 : Ring.nextQ (f.ring.pc t) (put.drop taken) = put.drop taken := by
    cases hp : f.ring.pc t <;> first | rfl | exact absurd hp (h1 _ _) | exact absurd hp (h2 _)
  have e2 : Ring.nextBase c.capacity (f.ring.pc t) base = base := by
    cases hp : f.ring.pc t <;> first | rfl | exact absurd hp (h2 _)
  have e3 : newPuts (f.ring.pc t) = [] := by
    cases hp : f.ring.pc t <;> first | rfl | exact absurd hp (h1 _ _)
  rw [e1, e2] at hi
  refine h.update t ap' (by rw [hring]; exact hi) ?_ (by rw [hub]; exact h.ub) hpc (fun u hu => by rw [hring]; exact tick_other _ hu)
    (fun u hu => by rw [hring]; exact tick_mine_other _ hu) (fun _ _ _ _ _ hx => hx) ?_
  · rw [hring, tick_puts h.inv t, e3, List.append_nil]; exact h.log
  · rw [hring, tick_mine]; exact ht

/-- entering a member function of the queue -/
theorem R.enterQueue {c : Cfg} {f : St} {put : List Event} {taken : Nat} {apc : Tid → SinkConc.PC} {base : Nat}
    (h : R c f put taken apc base) (t : Tid) (x : Spec.Call Event) (p' : PC) (hidle : f.ring.pc t = .idle)
    (ht : PCR c ((Ring.call f.ring t x).pc t) (mine f.ring t) (At c.capacity put taken base) p' (apc t)) :
    R c (setPc { f with ring := Ring.call f.ring t x } t p') put taken apc base := by
  have hm : ∀ u, mine (Ring.call f.ring t x) u = mine f.ring u := fun u => by unfold mine; rw [call_refs]
  have := h.update (f' := setPc { f with ring := Ring.call f.ring t x } t p') t (apc t) (Ring.inv_call h.inv t x)
    (by show put = Spec.putsOf none (Ring.call f.ring t x).log; rw [call_log]; exact h.log) h.ub
    (fun u hu => by show upd _ _ _ _ = _; rw [upd, if_neg hu]) (fun u hu => call_other _ _ hu) (fun u _ => hm u)
    (fun _ _ _ _ _ hx => hx) (by
      show PCR c ((Ring.call f.ring t x).pc t) (mine (Ring.call f.ring t x) t) _ (upd f.pc t p' t) _
      rw [hm, upd, if_pos rfl]; exact ht)
  rwa [upd_self] at this

/-- destruction of a `NodeRef` -/
theorem R.dropStep {c : Cfg} {f : St} {put : List Event} {taken : Nat} {apc : Tid → SinkConc.PC} {base : Nat}
    (h : R c f put taken apc base) (t : Tid) (p' : PC) (ap' : SinkConc.PC) {r : Ring.Ref Event} (hm : mine f.ring t = [r])
    (hidle : f.ring.pc t = .idle) (hs : SinkFull.simple p' = some ap') :
    R c (setPc { f with ring := dropRef f.ring t } t p') put taken (upd apc t ap') base := by
  obtain ⟨m1, m2⟩ := dropRef_mine hm
  have hpc : (dropRef f.ring t).pc = f.ring.pc := (drop_refs _ _).2.2
  refine h.update t ap' (Ring.inv_drop h.inv _) ?_ h.ub (fun u hu => by show upd _ _ _ _ = _; rw [upd, if_neg hu])
    (fun u _ => by show (dropRef f.ring t).pc u = _; rw [hpc]) m2 (fun _ _ _ _ _ hx => hx) ?_
  · show put = Spec.putsOf none (dropRef f.ring t).log
    unfold dropRef
    rw [(drop_refs _ _).2.1]; exact h.log
  · show PCR c ((dropRef f.ring t).pc t) (mine (dropRef f.ring t) t) _ (upd f.pc t p' t) ap'
    rw [hpc, upd, if_pos rfl]
    exact PCR.simple_intro hidle m1 hs

theorem w_onto {cap base k : Nat} (hb : base < cap) (hk : k < cap) : ∃ i, i < cap ∧ k = w cap base i := by
  by_cases h : base ≤ k
  · exact ⟨k - base, by omega, by unfold w; split <;> omega⟩
  · exact ⟨k + cap - base, by omega, by unfold w; split <;> omega⟩

/-- if an element is being read and the queue lacks one element to be full, a thread that has captured a slot for a new element does not
exist -/
theorem no_capture {c : Cfg} {f : St} {put : List Event} {taken : Nat} {apc : Tid → SinkConc.PC} {base : Nat} {phase : Nat → SinkConc.Phase}
    {held : Bool} {o : Bool} (h : R c f put taken apc base) (hr : SinkConc.Reach c o (abs f put taken phase held apc)) {t : Tid}
    {v : Event} {k : Nat} (hp : f.ring.pc t = .putCount v k) (hh : held = true) (hq : (put.drop taken).length + 1 = c.capacity) : False := by
  have hcs : inCS (f.ring.pc t) = true := by rw [hp]; rfl
  -- who is reading
  have hheld := SinkConc.held_reach hr
  have hflag : f.flag = true := by
    cases hf : f.flag with
    | true => rfl
    | false => have : held = false := hheld.free hf; rw [hh] at this; cases this
  obtain ⟨u, hu⟩ := (SinkConc.excl_reach hr).free hflag
  have hread : (apc u).reading = true := by
    have : held = (apc u).reading := hheld.body u hu
    rw [← this, hh]
  -- the reader's slot
  have hpk := h.inv.pcs t
  rw [hp] at hpk
  obtain ⟨a1, a2, a3⟩ := hpk
  have hlen := h.inv.len
  have hcap := h.inv.capEq
  have hslot : ∃ r ∈ mine f.ring u, r.fromGet = true := by
    have hpu := h.pcs u
    cases hfp : f.pc u with
    | getIn k' =>
      rw [hfp] at hpu
      obtain ⟨_, hpu⟩ := hpu
      rcases hpu with ⟨_, h2⟩ | ⟨_, h2⟩ | ⟨i, v', h2, h3⟩
      · rw [h2] at hread; cases hread
      · rw [h2, SinkConc.reading_nothing] at hread; cases hread
      · have htu := h.inv.excl t u hcs (by rw [h2]; rfl)
        subst htu; rw [hp] at h2; cases h2
    | uncount k' => rw [hfp] at hpu; obtain ⟨_, r, h2, h3, _⟩ := hpu; exact ⟨r, by rw [h2]; exact List.mem_cons_self, h3⟩
    | unref k' e => rw [hfp] at hpu; obtain ⟨_, r, h2, h3, _⟩ := hpu; exact ⟨r, by rw [h2]; exact List.mem_cons_self, h3⟩
    | sCall k' => rw [hfp] at hpu; obtain ⟨_, r, h2, h3, _⟩ := hpu; exact ⟨r, by rw [h2]; exact List.mem_cons_self, h3⟩
    | sUncount k' => rw [hfp] at hpu; obtain ⟨_, r, h2, h3, _⟩ := hpu; exact ⟨r, by rw [h2]; exact List.mem_cons_self, h3⟩
    | sUnref k' => rw [hfp] at hpu; obtain ⟨_, r, h2, h3, _⟩ := hpu; exact ⟨r, by rw [h2]; exact List.mem_cons_self, h3⟩
    | putIn e =>
      rw [hfp] at hpu
      obtain ⟨_, ⟨_, h2⟩ | ⟨_, h2⟩ | ⟨_, _, _, h2, _⟩⟩ := hpu <;> (rw [h2] at hread; cases hread)
    | count => rw [hfp] at hpu; obtain ⟨_, r, n, _, _, h2, _⟩ := hpu; rw [h2] at hread; cases hread
    | release => rw [hfp] at hpu; obtain ⟨_, r, n, _, _, h2, _⟩ := hpu; rw [h2] at hread; cases hread
    | sizeIn =>
      rw [hfp] at hpu
      obtain ⟨_, ⟨_, h2⟩ | ⟨n, _, h2⟩⟩ := hpu
      · rw [h2] at hread; cases hread
      · rw [h2] at hread; unfold sized at hread; split at hread <;> cases hread
    | _ =>
      rw [hfp] at hpu
      have := (hpu.of_simple rfl).2.2
      rw [this] at hread; cases hread
  obtain ⟨r, hrm, hrg⟩ := hslot
  have hrm := (mine_mem hrm).1
  obtain ⟨i, hi, hki⟩ := w_onto h.inv.baseLt (h.inv.refOk r hrm).2
  have hge : ¬ i < f.ring.buf.size := fun hlt => h.inv.refGet r hrm hrg i hlt hki
  have hie : i = f.ring.buf.size := by omega
  refine h.inv.uniqTR t k (by rw [hp]; rfl) r hrm ?_
  rw [hki, hie, a1, hcap]

theorem phase_put_cases {rp : Ring.PC Event} {e : Event} (h : Ring.phase rp = .called (.put e)) :
    rp = .putSpin e ∨ rp = .putCheck e ∨ rp = .putCapture e ∨ rp = .putRetry e ∨ (∃ k, rp = .putAdvance e k) ∨ (∃ k, rp = .putCount e k) ∨
      ∃ x, (rp = .obsSpin x ∨ rp = .obsRead x) ∧ x = .put e := by
  cases rp <;> simp_all [Ring.phase]

theorem phase_get_cases {rp : Ring.PC Event} (h : Ring.phase rp = .called .get) :
    rp = .getSpin ∨ rp = .getCheck ∨ rp = .getCapture ∨ rp = .getRetry ∨ (∃ k, rp = .getAdvance k) ∨ (∃ k, rp = .getCount k) ∨
      ∃ x, (rp = .obsSpin x ∨ rp = .obsRead x) ∧ x = .get := by
  cases rp <;> simp_all [Ring.phase]

theorem phase_size_cases {rp : Ring.PC Event} (h : Ring.phase rp = .called .size) : rp = .obsSpin .size ∨ rp = .obsRead .size := by
  cases rp <;> simp_all [Ring.phase]

/-- what a step here has to correspond to; `v`: is there a step of `SinkConc`? -/
def Sim (c : Cfg) (t : Tid) (ch : Ch) (v : Bool) (a : SinkConc.St) (f' : St) : Prop :=
  ∃ put taken phase held apc base, abs f' put taken phase held apc = (if v then SinkConc.step c a t ch else a) ∧ R c f' put taken apc base

theorem not_outside {rp : Ring.PC Event} (h : Ring.phase rp ≠ .idle) : outside rp = false := by
  cases rp <;> first | rfl | exact absurd rfl h

/-- a step inside the queue that `SinkConc` does not see -/
theorem sim_stutter {c : Cfg} {f : St} {put : List Event} {taken : Nat} {apc : Tid → SinkConc.PC} {base : Nat} {phase : Nat → SinkConc.Phase}
    {held : Bool} (h : R c f put taken apc base) (t : Tid) (ch : Ch) (h1 : ∀ v k, f.ring.pc t ≠ .putCount v k)
    (h2 : ∀ k, f.ring.pc t ≠ .getCount k)
    (ht : PCR c ((Ring.tick f.ring t).pc t) (mine f.ring t ++ newRefs t (f.ring.pc t)) (At c.capacity put taken base) (f.pc t) (apc t)) :
    Sim c t ch false (abs f put taken phase held apc) { f with ring := Ring.tick f.ring t } := by
  refine ⟨put, taken, phase, held, apc, base, rfl, ?_⟩
  have := h.ringStep t { f with ring := Ring.tick f.ring t } (apc t) rfl rfl (fun _ _ => rfl) h1 h2 ht
  rwa [upd_self] at this

/-- the same at the end of the call -/
theorem sim_return {c : Cfg} {f : St} {put : List Event} {taken : Nat} {apc : Tid → SinkConc.PC} {base : Nat} {phase : Nat → SinkConc.Phase}
    {held : Bool} (h : R c f put taken apc base) (t : Tid) (ch : Ch) (p' : PC) (h1 : ∀ v k, f.ring.pc t ≠ .putCount v k)
    (h2 : ∀ k, f.ring.pc t ≠ .getCount k)
    (ht : PCR c ((Ring.tick f.ring t).pc t) (mine f.ring t ++ newRefs t (f.ring.pc t)) (At c.capacity put taken base) p' (apc t)) :
    Sim c t ch false (abs f put taken phase held apc) (setPc { f with ring := Ring.tick f.ring t } t p') := by
  refine ⟨put, taken, phase, held, apc, base, rfl, ?_⟩
  have := h.ringStep t (setPc { f with ring := Ring.tick f.ring t } t p') (apc t) rfl rfl
    (fun u hu => by show upd _ _ _ _ = _; rw [upd, if_neg hu]) h1 h2 (by
      show PCR c _ _ _ (upd f.pc t p' t) _
      rw [upd, if_pos rfl]; exact ht)
  rwa [upd_self] at this

/-- a linearisation point that does not change the queue -/
theorem sim_lin {c : Cfg} {f : St} {put : List Event} {taken : Nat} {apc : Tid → SinkConc.PC} {base : Nat} {phase : Nat → SinkConc.Phase}
    {held : Bool} (h : R c f put taken apc base) (t : Tid) (ch : Ch) (ap' : SinkConc.PC) (h1 : ∀ v k, f.ring.pc t ≠ .putCount v k)
    (h2 : ∀ k, f.ring.pc t ≠ .getCount k)
    (hs : SinkConc.step c (abs f put taken phase held apc) t ch = SinkConc.setPc (abs f put taken phase held apc) t ap')
    (ht : PCR c ((Ring.tick f.ring t).pc t) (mine f.ring t ++ newRefs t (f.ring.pc t)) (At c.capacity put taken base) (f.pc t) ap') :
    Sim c t ch true (abs f put taken phase held apc) { f with ring := Ring.tick f.ring t } :=
  ⟨put, taken, phase, held, upd apc t ap', base, (by rw [if_pos rfl, hs]; rfl),
    h.ringStep t { f with ring := Ring.tick f.ring t } ap' rfl rfl (fun _ _ => rfl) h1 h2 ht⟩

theorem sim_putIn {c : Cfg} {f : St} {put : List Event} {taken : Nat} {apc : Tid → SinkConc.PC} {base : Nat} {phase : Nat → SinkConc.Phase}
    {held o : Bool} (h : R c f put taken apc base) (hr : SinkConc.Reach c o (abs f put taken phase held apc)) (t : Tid) (ch : Ch)
    {e : Event} (hp : f.pc t = .putIn e) : Sim c t ch (shown f t ch) (abs f put taken phase held apc) (step c f t ch) := by
  have hpc := h.pcs t
  rw [hp] at hpc
  obtain ⟨hm, hpc⟩ := hpc
  have hsh : shown f t ch = (pending (f.ring.pc t) && !pending ((Ring.tick f.ring t).pc t)) := by unfold shown; simp only [hp]
  have hpk := h.inv.pcs t
  have hlen := h.inv.len
  have hcap := h.inv.capEq
  have hbl := h.inv.baseLt
  have hstay : Ring.phase ((Ring.tick f.ring t).pc t) ≠ .idle → step c f t ch = { f with ring := Ring.tick f.ring t } := by
    intro hne
    unfold step; simp only [hp]; rw [not_outside hne]; rfl
  rcases hpc with ⟨hph, hap⟩ | ⟨hrp, hap⟩ | ⟨k, n, hb, hap, hat⟩
  · -- before the linearisation point
    have plain : newRefs t (f.ring.pc t) = [] → (∀ v k, f.ring.pc t ≠ .putCount v k) → (∀ k, f.ring.pc t ≠ .getCount k) →
        Ring.phase ((Ring.tick f.ring t).pc t) = .called (.put e) →
        Sim c t ch (shown f t ch) (abs f put taken phase held apc) (step c f t ch) := by
      intro hn h1 h2 hq
      rw [hsh, pending_called hq, Bool.not_true, Bool.and_false]
      rw [hstay (by rw [hq]; simp)]
      refine sim_stutter h t ch h1 h2 ?_
      rw [hm, hn, hp]
      exact ⟨rfl, Or.inl ⟨hq, hap⟩⟩
    rcases phase_put_cases hph with hrp | hrp | hrp | hrp | ⟨k, hrp⟩ | ⟨k, hrp⟩ | ⟨x, hrp, hx⟩
    · refine plain (by rw [hrp]; rfl) (by rw [hrp]; simp) (by rw [hrp]; simp) ?_
      unfold Ring.tick; simp only [hrp]; split
      · rw [hrp]; rfl
      · simp [upd, Ring.phase]
    · -- putCheck
      have hcs : inCS (f.ring.pc t) = true := by rw [hrp]; rfl
      have e1 := h.inv.popEq hcs (by rw [hrp]; rfl)
      have e2 := h.inv.pushEq hcs (by rw [hrp]; rfl)
      by_cases hfull : f.ring.buf.popIdx = f.ring.buf.pushIdx ∧ f.ring.buf.size ≠ 0
      · have htk : (Ring.tick f.ring t).pc t = .putFull e := by
          unfold Ring.tick; simp only [hrp]; rw [if_pos hfull]; simp [upd]
        rw [hstay (by rw [htk]; simp [Ring.phase])]
        rw [hsh, pending_called hph, htk]
        refine sim_lin h t ch (.enter (.retry e)) (by rw [hrp]; simp) (by rw [hrp]; simp) ?_ ?_
        · have hq : (abs f put taken phase held apc).queued = c.capacity := by
            show put.length - taken = c.capacity
            rw [List.length_drop] at hlen
            rw [hlen]
            rw [e1, e2] at hfull
            obtain ⟨hf1, hf2⟩ := hfull
            rcases Nat.lt_or_ge f.ring.buf.size c.capacity with hlt | hge
            · have := Ring.w_inj (i := 0) (j := f.ring.buf.size) hbl (by omega) (by omega) (by rw [Ring.w_zero hbl]; exact hf1)
              omega
            · have := h.inv.sizeLe; omega
          unfold SinkConc.step
          have : (abs f put taken phase held apc).pc t = .put e := hap
          simp only [this]
          rw [if_pos hq]
        · rw [hm, hrp, htk, hp]
          exact ⟨rfl, Or.inr (Or.inl ⟨rfl, rfl⟩)⟩
      · refine plain (by rw [hrp]; rfl) (by rw [hrp]; simp) (by rw [hrp]; simp) ?_
        unfold Ring.tick; simp only [hrp]; rw [if_neg hfull]; simp [upd, Ring.phase]
    · refine plain (by rw [hrp]; rfl) (by rw [hrp]; simp) (by rw [hrp]; simp) ?_
      unfold Ring.tick; simp only [hrp]; (repeat' split) <;> simp [upd, Ring.phase, hrp]
    · refine plain (by rw [hrp]; rfl) (by rw [hrp]; simp) (by rw [hrp]; simp) ?_
      unfold Ring.tick; simp only [hrp]; simp [upd, Ring.phase]
    · refine plain (by rw [hrp]; rfl) (by rw [hrp]; simp) (by rw [hrp]; simp) ?_
      unfold Ring.tick; simp only [hrp]; (repeat' split) <;> simp [upd, Ring.phase, hrp]
    · -- putCount: the element is accepted
      rw [hrp] at hpk
      obtain ⟨a1, a2, a3⟩ := hpk
      have htk : (Ring.tick f.ring t).pc t = .putUnlock e k := by
        unfold Ring.tick; simp only [hrp]; rw [if_pos a2]; simp [upd]
      have hi := Ring.inv_tick_exact h.inv t
      rw [hrp] at hi
      rw [List.length_drop] at hlen
      have htl := (SinkConc.tick_reach hr).taken
      have htl : taken ≤ put.length := htl
      have hdrop : (put ++ [e]).drop taken = put.drop taken ++ [e] := by
        rw [List.drop_append_of_le_length htl]
      refine ⟨put ++ [e], taken, phase, held, upd apc t (.count put.length), base, ?_, ?_⟩
      · rw [hsh, pending_called hph, htk, show pending (.putUnlock e k) = false from rfl, Bool.not_false, Bool.and_true, if_pos rfl]
        rw [hstay (by rw [htk]; simp [Ring.phase])]
        unfold SinkConc.step
        have : (abs f put taken phase held apc).pc t = .put e := hap
        simp only [this]
        rw [if_neg (by show ¬ put.length - taken = c.capacity; omega), if_neg (by
          rintro ⟨hh, hq⟩
          have hq : put.length - taken + 1 = c.capacity := hq
          exact no_capture h hr hrp hh (by rw [List.length_drop]; exact hq))]
        rfl
      · rw [hstay (by rw [htk]; simp [Ring.phase])]
        refine h.update t (.count put.length) (by rw [hdrop]; exact hi) ?_ h.ub (fun _ _ => rfl) (fun u hu => tick_other _ hu)
          (fun u hu => tick_mine_other _ hu) ?_ ?_
        · show put ++ [e] = Spec.putsOf none (Ring.tick f.ring t).log
          rw [tick_puts h.inv t, hrp, ← h.log]; rfl
        · intro u _ n k' _ hat
          exact ⟨hat.lo, by rw [List.length_append]; exact Nat.lt_add_right _ hat.hi, hat.slot⟩
        · show PCR c ((Ring.tick f.ring t).pc t) (mine (Ring.tick f.ring t) t) _ (f.pc t) _
          rw [htk, tick_mine, hm, hrp, hp]
          refine ⟨rfl, Or.inr (Or.inr ⟨k, put.length, rfl, rfl, ⟨htl, by simp, ?_⟩⟩)⟩
          rw [a1, hcap, hlen]
    · -- observers do not occur
      have hobs : Ring.isObs x = true := by
        rcases hrp with hrp | hrp <;> (rw [hrp] at hpk; exact hpk)
      rw [hx] at hobs; cases hobs
  · -- the queue was full: return
    have htk : (Ring.tick f.ring t).pc t = .idle := by unfold Ring.tick; simp only [hrp]; simp [upd]
    have hmt : mine (Ring.tick f.ring t) t = [] := by rw [tick_mine, hm, hrp]; rfl
    have : step c f t ch = setPc { f with ring := Ring.tick f.ring t } t (.enter (.retry e)) := by
      unfold step; simp only [hp]; rw [htk, hasRef_false hmt]; rfl
    rw [this]
    rw [hsh, hrp]
    refine sim_return h t ch _ (by rw [hrp]; simp) (by rw [hrp]; simp) ?_
    rw [htk, hm, hrp, hap]
    exact ⟨rfl, rfl, rfl⟩
  · -- after the linearisation point
    cases hrp : f.ring.pc t with
    | putUnlock v k' =>
      rw [hrp] at hb
      have htk : (Ring.tick f.ring t).pc t = .putInit v k' := by unfold Ring.tick; simp only [hrp]; simp [upd]
      rw [hstay (by rw [htk]; simp [Ring.phase])]
      rw [hsh, hrp]
      refine sim_stutter h t ch (by rw [hrp]; simp) (by rw [hrp]; simp) ?_
      rw [htk, hm, hrp, hp]
      exact ⟨rfl, Or.inr (Or.inr ⟨k, n, hb, hap, hat⟩)⟩
    | putInit v k' =>
      rw [hrp] at hb
      have htk : (Ring.tick f.ring t).pc t = .putBuild v k' := by unfold Ring.tick; simp only [hrp]; simp [upd]
      rw [hstay (by rw [htk]; simp [Ring.phase])]
      rw [hsh, hrp]
      refine sim_stutter h t ch (by rw [hrp]; simp) (by rw [hrp]; simp) ?_
      rw [htk, hm, hrp, hp]
      exact ⟨rfl, Or.inr (Or.inr ⟨k, n, hb, hap, hat⟩)⟩
    | putBuild v k' =>
      rw [hrp] at hb
      have hv : v = e ∧ k' = k := by simpa [building] using hb
      obtain ⟨rfl, rfl⟩ := hv
      have htk : (Ring.tick f.ring t).pc t = .idle := by unfold Ring.tick; simp only [hrp]; simp [upd]
      have hmt : mine (Ring.tick f.ring t) t = [⟨t, k', false, v⟩] := by rw [tick_mine, hm, hrp]; rfl
      have : step c f t ch = setPc { f with ring := Ring.tick f.ring t } t .count := by
        unfold step; simp only [hp]; rw [htk, hasRef_true hmt]; rfl
      rw [this]
      rw [hsh, hrp]
      refine sim_return h t ch _ (by rw [hrp]; simp) (by rw [hrp]; simp) ?_
      rw [htk, hm, hrp, hap]
      exact ⟨rfl, _, n, rfl, rfl, rfl, hat⟩
    | _ => rw [hrp] at hb; simp [building] at hb

theorem sim_getIn {c : Cfg} {f : St} {put : List Event} {taken : Nat} {apc : Tid → SinkConc.PC} {base : Nat} {phase : Nat → SinkConc.Phase}
    {held o : Bool} (h : R c f put taken apc base) (hr : SinkConc.Reach c o (abs f put taken phase held apc)) (t : Tid) (ch : Ch)
    {k : Ret} (hp : f.pc t = .getIn k) : Sim c t ch (shown f t ch) (abs f put taken phase held apc) (step c f t ch) := by
  have hpc := h.pcs t
  rw [hp] at hpc
  obtain ⟨hm, hpc⟩ := hpc
  have hsh : shown f t ch = (pending (f.ring.pc t) && !pending ((Ring.tick f.ring t).pc t)) := by unfold shown; simp only [hp]
  have hpk := h.inv.pcs t
  have hlen := h.inv.len
  have hcap := h.inv.capEq
  have hbl := h.inv.baseLt
  have htl : taken ≤ put.length := (SinkConc.tick_reach hr).taken
  have hstay : Ring.phase ((Ring.tick f.ring t).pc t) ≠ .idle → step c f t ch = { f with ring := Ring.tick f.ring t } := by
    intro hne
    unfold step; simp only [hp]; rw [not_outside hne]; rfl
  rcases hpc with ⟨hph, hap⟩ | ⟨hrp, hap⟩ | ⟨i, v, hrp, hap⟩
  · have plain : newRefs t (f.ring.pc t) = [] → (∀ v k, f.ring.pc t ≠ .putCount v k) → (∀ k, f.ring.pc t ≠ .getCount k) →
        Ring.phase ((Ring.tick f.ring t).pc t) = .called .get →
        Sim c t ch (shown f t ch) (abs f put taken phase held apc) (step c f t ch) := by
      intro hn h1 h2 hq
      rw [hsh, pending_called hq, Bool.not_true, Bool.and_false]
      rw [hstay (by rw [hq]; simp)]
      refine sim_stutter h t ch h1 h2 ?_
      rw [hm, hn, hp]
      exact ⟨rfl, Or.inl ⟨hq, hap⟩⟩
    rcases phase_get_cases hph with hrp | hrp | hrp | hrp | ⟨i, hrp⟩ | ⟨i, hrp⟩ | ⟨x, hrp, hx⟩
    · refine plain (by rw [hrp]; rfl) (by rw [hrp]; simp) (by rw [hrp]; simp) ?_
      unfold Ring.tick; simp only [hrp]; split
      · rw [hrp]; rfl
      · simp [upd, Ring.phase]
    · -- getCheck
      by_cases hemp : f.ring.buf.pushIdx = f.ring.buf.popIdx ∧ f.ring.buf.size = 0
      · have htk : (Ring.tick f.ring t).pc t = .getEmpty := by
          unfold Ring.tick; simp only [hrp]; rw [if_pos hemp]; simp [upd]
        rw [hstay (by rw [htk]; simp [Ring.phase])]
        rw [hsh, pending_called hph, htk]
        refine sim_lin h t ch (SinkConc.nothing c k) (by rw [hrp]; simp) (by rw [hrp]; simp) ?_ ?_
        · rw [List.length_drop, hemp.2] at hlen
          exact SinkConc.get_step_none hap (List.getElem?_eq_none (by show put.length ≤ taken; omega))
        · rw [hm, hrp, htk, hp]
          exact ⟨rfl, Or.inr (Or.inl ⟨rfl, rfl⟩)⟩
      · refine plain (by rw [hrp]; rfl) (by rw [hrp]; simp) (by rw [hrp]; simp) ?_
        unfold Ring.tick; simp only [hrp]; rw [if_neg hemp]; simp [upd, Ring.phase]
    · refine plain (by rw [hrp]; rfl) (by rw [hrp]; simp) (by rw [hrp]; simp) ?_
      unfold Ring.tick; simp only [hrp]; (repeat' split) <;> simp [upd, Ring.phase, hrp]
    · refine plain (by rw [hrp]; rfl) (by rw [hrp]; simp) (by rw [hrp]; simp) ?_
      unfold Ring.tick; simp only [hrp]; simp [upd, Ring.phase]
    · refine plain (by rw [hrp]; rfl) (by rw [hrp]; simp) (by rw [hrp]; simp) ?_
      unfold Ring.tick; simp only [hrp]; (repeat' split) <;> simp [upd, Ring.phase, hrp]
    · -- getCount: the element leaves the queue
      have hpk0 := hpk
      rw [hrp] at hpk
      obtain ⟨a1, a2, a3, a4⟩ := hpk
      have hlen' := hlen
      rw [List.length_drop] at hlen'
      have hlt : taken < put.length := by omega
      have hcons : put.drop taken = put[taken] :: put.drop (taken + 1) := List.drop_eq_getElem_cons hlt
      have hitem : f.ring.buf.item i = some put[taken] := by rw [a3, hcons]; rfl
      have htk : (Ring.tick f.ring t).pc t = .getUnlock i put[taken] := by
        unfold Ring.tick; simp only [hrp]; rw [if_neg (by omega)]; simp only [hitem]; simp [upd]
      have hget : put[taken]? = some put[taken] := List.getElem?_eq_getElem hlt
      have howner : ∀ u n, u ≠ t → Owns (f.ring.pc u) (mine f.ring u) (w c.capacity base n) → n < c.capacity → n ≠ 0 := by
        intro u n hu ho hn h0
        subst h0
        rw [Ring.w_zero hbl] at ho
        rcases ho with ho | ⟨r, hrm, hrs⟩
        · exact hu (h.inv.uniqT u t base ho (by rw [hrp, a1]; rfl))
        · exact h.inv.uniqTR t base (by rw [hrp, a1]; rfl) r (mine_mem hrm).1 hrs
      have hready : phase taken = .ready := by
        cases hph' : phase taken with
        | ready => rfl
        | made =>
          exfalso
          obtain ⟨u, hu⟩ := (SinkConc.conv_reach hr).made taken hlt hph'
          have hu : apc u = .count taken := hu
          have hut : u ≠ t := by intro he; subst he; rw [hap] at hu; cases hu
          have hpu := h.pcs u
          rw [hu] at hpu
          cases hfp : f.pc u with
          | putIn e =>
            rw [hfp] at hpu
            obtain ⟨_, ⟨_, h2⟩ | ⟨_, h2⟩ | ⟨k', n, h2, h3, h4⟩⟩ := hpu
            · cases h2
            · cases h2
            · have : taken = n := by simpa using h3
              subst this
              have := h4.slot
              rw [Nat.sub_self] at this
              subst this
              exact howner u 0 hut (Or.inl (Ring.building_slot h2)) (by omega) rfl
          | count =>
            rw [hfp] at hpu
            obtain ⟨_, r, n, h2, _, h3, h4⟩ := hpu
            have : taken = n := by simpa using h3
            subst this
            have := h4.slot
            rw [Nat.sub_self] at this
            exact howner u 0 hut (Or.inr ⟨r, by rw [h2]; exact List.mem_cons_self, this⟩) (by omega) rfl
          | release => rw [hfp] at hpu; obtain ⟨_, r, n, _, _, h3, _⟩ := hpu; cases h3
          | getIn k' =>
            rw [hfp] at hpu
            obtain ⟨_, ⟨_, h2⟩ | ⟨_, h2⟩ | ⟨_, _, _, h2⟩⟩ := hpu
            · cases h2
            · unfold SinkConc.nothing at h2; split at h2 <;> cases h2
            · unfold SinkConc.taking at h2; split at h2 <;> cases h2
          | uncount k' => rw [hfp] at hpu; obtain ⟨_, r, _, _, h3⟩ := hpu; cases h3
          | unref k' e => rw [hfp] at hpu; obtain ⟨_, r, _, _, h3⟩ := hpu; cases h3
          | sCall k' => rw [hfp] at hpu; obtain ⟨_, r, _, _, h3⟩ := hpu; cases h3
          | sUncount k' => rw [hfp] at hpu; obtain ⟨_, r, _, _, h3⟩ := hpu; cases h3
          | sUnref k' => rw [hfp] at hpu; obtain ⟨_, r, _, _, h3⟩ := hpu; cases h3
          | sizeIn =>
            rw [hfp] at hpu
            obtain ⟨_, ⟨_, h2⟩ | ⟨n, _, h2⟩⟩ := hpu
            · cases h2
            · unfold sized at h2; split at h2 <;> cases h2
          | _ => rw [hfp] at hpu; have := (hpu.of_simple rfl).2.2; cases this
        | counted =>
          exfalso
          obtain ⟨u, hu⟩ := (SinkConc.conv_reach hr).counted taken hlt hph'
          have hu : apc u = .release taken := hu
          have hut : u ≠ t := by intro he; subst he; rw [hap] at hu; cases hu
          have hpu := h.pcs u
          rw [hu] at hpu
          cases hfp : f.pc u with
          | putIn e =>
            rw [hfp] at hpu
            obtain ⟨_, ⟨_, h2⟩ | ⟨_, h2⟩ | ⟨k', n, h2, h3, h4⟩⟩ := hpu
            · cases h2
            · cases h2
            · cases h3
          | count => rw [hfp] at hpu; obtain ⟨_, r, n, _, _, h3, _⟩ := hpu; cases h3
          | release =>
            rw [hfp] at hpu
            obtain ⟨_, r, n, h2, _, h3, h4⟩ := hpu
            have : taken = n := by simpa using h3
            subst this
            have := h4.slot
            rw [Nat.sub_self] at this
            exact howner u 0 hut (Or.inr ⟨r, by rw [h2]; exact List.mem_cons_self, this⟩) (by omega) rfl
          | getIn k' =>
            rw [hfp] at hpu
            obtain ⟨_, ⟨_, h2⟩ | ⟨_, h2⟩ | ⟨_, _, _, h2⟩⟩ := hpu
            · cases h2
            · unfold SinkConc.nothing at h2; split at h2 <;> cases h2
            · unfold SinkConc.taking at h2; split at h2 <;> cases h2
          | uncount k' => rw [hfp] at hpu; obtain ⟨_, r, _, _, h3⟩ := hpu; cases h3
          | unref k' e => rw [hfp] at hpu; obtain ⟨_, r, _, _, h3⟩ := hpu; cases h3
          | sCall k' => rw [hfp] at hpu; obtain ⟨_, r, _, _, h3⟩ := hpu; cases h3
          | sUncount k' => rw [hfp] at hpu; obtain ⟨_, r, _, _, h3⟩ := hpu; cases h3
          | sUnref k' => rw [hfp] at hpu; obtain ⟨_, r, _, _, h3⟩ := hpu; cases h3
          | sizeIn =>
            rw [hfp] at hpu
            obtain ⟨_, ⟨_, h2⟩ | ⟨n, _, h2⟩⟩ := hpu
            · cases h2
            · unfold sized at h2; split at h2 <;> cases h2
          | _ => rw [hfp] at hpu; have := (hpu.of_simple rfl).2.2; cases this
      have hi := Ring.inv_tick_exact h.inv t
      rw [hrp, hcons] at hi
      refine ⟨put, taken + 1, phase, true, upd apc t (SinkConc.taking c k put[taken]), w c.capacity base 1, ?_, ?_⟩
      · rw [hsh, pending_called hph, htk, show pending (.getUnlock i put[taken]) = false from rfl, Bool.not_false, Bool.and_true, if_pos rfl]
        rw [hstay (by rw [htk]; simp [Ring.phase])]
        rw [SinkConc.get_step_some (s := abs f put taken phase held apc) hap hget hready]
        rfl
      · rw [hstay (by rw [htk]; simp [Ring.phase])]
        refine h.update t _ hi ?_ h.ub (fun _ _ => rfl) (fun u hu => tick_other _ hu) (fun u hu => tick_mine_other _ hu) ?_ ?_
        · show put = Spec.putsOf none (Ring.tick f.ring t).log
          rw [tick_puts h.inv t, hrp, ← h.log]; exact (List.append_nil _).symm
        · intro u hu n k' ho hat
          have hsz := h.inv.sizeLe
          have hn0 : n - taken ≠ 0 := howner u (n - taken) hu (by rw [← hat.slot]; exact ho) (by have := hat.hi; omega)
          refine ⟨by omega, hat.hi, ?_⟩
          rw [Ring.w_shift hbl (by have := hat.hi; omega), hat.slot]
          congr 1
          omega
        · show PCR c ((Ring.tick f.ring t).pc t) (mine (Ring.tick f.ring t) t) _ (f.pc t) _
          rw [htk, tick_mine, hm, hrp, hp]
          exact ⟨rfl, Or.inr (Or.inr ⟨i, put[taken], rfl, rfl⟩)⟩
    · have hobs : Ring.isObs x = true := by
        rcases hrp with hrp | hrp <;> (rw [hrp] at hpk; exact hpk)
      rw [hx] at hobs; cases hobs
  · -- nothing there: return
    have htk : (Ring.tick f.ring t).pc t = .idle := by unfold Ring.tick; simp only [hrp]; simp [upd]
    have hmt : mine (Ring.tick f.ring t) t = [] := by rw [tick_mine, hm, hrp]; rfl
    have : step c f t ch = setPc { f with ring := Ring.tick f.ring t } t (nothing c k) := by
      unfold step; simp only [hp]; rw [htk, hasRef_false hmt]; rfl
    rw [this]
    rw [hsh, hrp]
    refine sim_return h t ch _ (by rw [hrp]; simp) (by rw [hrp]; simp) ?_
    rw [htk, hm, hrp, hap]
    refine PCR.simple_intro rfl rfl ?_
    unfold nothing SinkConc.nothing; split <;> rfl
  · -- an element: return
    have htk : (Ring.tick f.ring t).pc t = .idle := by unfold Ring.tick; simp only [hrp]; simp [upd]
    have hmt : mine (Ring.tick f.ring t) t = [⟨t, i, true, v⟩] := by rw [tick_mine, hm, hrp]; rfl
    have : step c f t ch = setPc { f with ring := Ring.tick f.ring t } t (taking c k) := by
      unfold step; simp only [hp]; rw [htk, hasRef_true hmt]; rfl
    rw [this]
    rw [hsh, hrp]
    refine sim_return h t ch _ (by rw [hrp]; simp) (by rw [hrp]; simp) ?_
    rw [htk, hm, hrp, hap]
    unfold taking SinkConc.taking
    split
    · exact ⟨rfl, _, rfl, rfl, rfl⟩
    · exact ⟨rfl, _, rfl, rfl, rfl⟩

theorem sim_sizeIn {c : Cfg} {f : St} {put : List Event} {taken : Nat} {apc : Tid → SinkConc.PC} {base : Nat} {phase : Nat → SinkConc.Phase}
    {held : Bool} (h : R c f put taken apc base) (t : Tid) (ch : Ch)
    (hp : f.pc t = .sizeIn) : Sim c t ch (shown f t ch) (abs f put taken phase held apc) (step c f t ch) := by
  have hpc := h.pcs t
  rw [hp] at hpc
  obtain ⟨hm, hpc⟩ := hpc
  have hsh : shown f t ch = (pending (f.ring.pc t) && !pending ((Ring.tick f.ring t).pc t)) := by unfold shown; simp only [hp]
  have hlen := h.inv.len
  rcases hpc with ⟨hph, hap⟩ | ⟨n, hrp, hap⟩
  · rcases phase_size_cases hph with hrp | hrp
    · have : step c f t ch = { f with ring := Ring.tick f.ring t } := by unfold step; simp only [hp, hrp]
      rw [this]
      have hq : Ring.phase ((Ring.tick f.ring t).pc t) = .called .size := by
        unfold Ring.tick; simp only [hrp]; split
        · rw [hrp]; rfl
        · simp [upd, Ring.phase]
      rw [hsh, pending_called hq, Bool.not_true, Bool.and_false]
      refine sim_stutter h t ch (by rw [hrp]; simp) (by rw [hrp]; simp) ?_
      rw [hm, hrp, hp]
      exact ⟨rfl, Or.inl ⟨hq, hap⟩⟩
    · have : step c f t ch = { f with ring := Ring.tick f.ring t } := by unfold step; simp only [hp, hrp]
      rw [this]
      have htk : (Ring.tick f.ring t).pc t = .obsUnlock .size f.ring.buf.size := by unfold Ring.tick; simp only [hrp]; simp [upd]
      rw [hsh, pending_called hph, htk]
      refine sim_lin h t ch (sized f.ring.buf.size) (by rw [hrp]; simp) (by rw [hrp]; simp) ?_ ?_
      · unfold SinkConc.step
        have hap' : (abs f put taken phase held apc).pc t = .wSize := hap
        simp only [hap']
        have hq : (abs f put taken phase held apc).queued = f.ring.buf.size := by
          show put.length - taken = _
          rw [← hlen, List.length_drop]
        rw [hq]
        unfold sized
        split <;> rfl
      · rw [hm, hrp, hp]
        refine ⟨rfl, Or.inr ⟨f.ring.buf.size, ?_, rfl⟩⟩
        unfold Ring.tick; simp only [hrp]; simp [upd]
  · have : step c f t ch = setPc { f with ring := Ring.tick f.ring t } t (if n = 0 then .wExit else .wWait) := by
      unfold step; simp only [hp, hrp]
    rw [this]
    rw [hsh, hrp]
    refine sim_return h t ch _ (by rw [hrp]; simp) (by rw [hrp]; simp) ?_
    have htk : (Ring.tick f.ring t).pc t = .idle := by unfold Ring.tick; simp only [hrp]; simp [upd]
    rw [htk, hm, hrp, hap]
    refine PCR.simple_intro rfl rfl ?_
    unfold sized; split <;> rfl

/-- steps that do not touch the queue, in general -/
theorem R.still {c : Cfg} {f : St} {put : List Event} {taken : Nat} {apc : Tid → SinkConc.PC} {base : Nat}
    (h : R c f put taken apc base) (t : Tid) (f0 : St) (p' : PC) (ap' : SinkConc.PC) (hring : f0.ring = f.ring)
    (hub : f0.ub = f.ub) (hpc : f0.pc = f.pc)
    (ht : PCR c (f.ring.pc t) (mine f.ring t) (At c.capacity put taken base) p' ap') :
    R c (setPc f0 t p') put taken (upd apc t ap') base := by
  have hr : (setPc f0 t p').ring = f.ring := hring
  refine h.update t ap' (by rw [hr]; exact h.inv) (by rw [hr]; exact h.log) (by rw [← h.ub]; exact hub) ?_ (fun u _ => by rw [hr])
    (fun u _ => by rw [hr]) (fun _ _ _ _ _ hx => hx) ?_
  · intro u hu
    show upd _ _ _ _ = _
    rw [upd, if_neg hu, hpc]
  · rw [hr]
    show PCR c _ _ _ (upd f0.pc t p' t) ap'
    rw [upd, if_pos rfl]
    exact ht

theorem read_val {c : Cfg} {f : St} {put : List Event} {taken : Nat} {apc : Tid → SinkConc.PC} {base : Nat}
    (h : R c f put taken apc base) {t : Tid} {r : Ring.Ref Event} (hm : mine f.ring t = [r]) : readRef f.ring t = some r.val := by
  have hrm := (mine_mem (r := f.ring) (t := t) (x := r) (by rw [hm]; exact List.mem_cons_self)).1
  rw [readRef_eq hm, (h.inv.refOk r hrm).1]

theorem ref_put {c : Cfg} {f : St} {put : List Event} {taken : Nat} {apc : Tid → SinkConc.PC} {base : Nat}
    (h : R c f put taken apc base) {t : Tid} {r : Ring.Ref Event} (hm : mine f.ring t = [r]) (hg : r.fromGet = false) {n : Nat}
    (hat : At c.capacity put taken base n r.slot) : put[n]? = some r.val := by
  have hrm := (mine_mem (r := f.ring) (t := t) (x := r) (by rw [hm]; exact List.mem_cons_self)).1
  obtain ⟨i, hi, hs, hv⟩ := h.inv.refPut r hrm hg
  have hlen := h.inv.len
  rw [List.length_drop] at hlen
  have hsz := h.inv.sizeLe
  have hlo := hat.lo
  have hhi := hat.hi
  have hin : i = n - taken := Ring.w_inj h.inv.baseLt (by omega) (by omega) (by rw [← hs]; exact hat.slot)
  rw [List.getElem?_drop, hin] at hv
  rw [← hv]
  congr 1
  omega

theorem sim_step {c : Cfg} {f : St} {put : List Event} {taken : Nat} {apc : Tid → SinkConc.PC} {base : Nat} {phase : Nat → SinkConc.Phase}
    {held o : Bool} (h : R c f put taken apc base) (hr : SinkConc.Reach c o (abs f put taken phase held apc)) (t : Tid) (ch : Ch) :
    Sim c t ch (shown f t ch) (abs f put taken phase held apc) (step c f t ch) := by
  have hpc := h.pcs t
  unfold shown
  -- a step that is a simple step there as well
  have simp1 : ∀ {ap : SinkConc.PC} (f0 : St) (p' : PC) (ap' : SinkConc.PC), SinkFull.simple (f.pc t) = some ap → step c f t ch = setPc f0 t p' →
      f0.ring = f.ring → f0.ub = f.ub → f0.pc = f.pc → SinkFull.simple p' = some ap' →
      (apc t = ap → SinkConc.step c (abs f put taken phase held apc) t ch = SinkConc.setPc (abs f0 put taken phase held apc) t ap') →
      Sim c t ch true (abs f put taken phase held apc) (step c f t ch) := by
    intro ap f0 p' ap' hs hst h1 h2 h3 hs' hsim
    refine ⟨put, taken, phase, held, upd apc t ap', base, ?_, ?_⟩
    · show abs _ _ _ _ _ _ = SinkConc.step c _ t ch
      rw [hst, hsim (hpc.of_simple hs).2.2]; rfl
    · rw [hst]; exact h.simple t f0 p' ap' h1 h2 h3 hs hs'
  have same : step c f t ch = f → Sim c t ch false (abs f put taken phase held apc) (step c f t ch) := by
    intro he; rw [he]; exact ⟨put, taken, phase, held, apc, base, rfl, h⟩
  have hafter : ∀ k, SinkFull.simple (afterFlush k) = some (SinkConc.afterFlush k) := by intro k; cases k <;> rfl
  cases hp : f.pc t with
  | idle => exact same (by unfold step; simp only [hp])
  | wExit => exact same (by unfold step; simp only [hp])
  | dead => exact same (by unfold step; simp only [hp])
  | putIn e => have := sim_putIn h hr t ch hp; unfold shown at this; rw [hp] at this; exact this
  | getIn k => have := sim_getIn h hr t ch hp; unfold shown at this; rw [hp] at this; exact this
  | sizeIn => have := sim_sizeIn (phase := phase) (held := held) h t ch hp; unfold shown at this; rw [hp] at this; exact this
  | put e =>
    rw [hp] at hpc
    obtain ⟨h1, h2, h3⟩ := hpc.of_simple rfl
    refine ⟨put, taken, phase, held, apc, base, (by unfold step; simp only [hp]; rfl), ?_⟩
    have : step c f t ch = setPc { f with ring := Ring.call f.ring t (.put e) } t (.putIn e) := by unfold step; simp only [hp]
    rw [this]
    refine h.enterQueue t (.put e) (.putIn e) h1 ⟨h2, Or.inl ⟨?_, h3⟩⟩
    unfold Ring.call; simp only [h1]; simp [upd, Ring.phase]
  | get k =>
    rw [hp] at hpc
    obtain ⟨h1, h2, h3⟩ := hpc.of_simple rfl
    refine ⟨put, taken, phase, held, apc, base, (by unfold step; simp only [hp]; rfl), ?_⟩
    have : step c f t ch = setPc { f with ring := Ring.call f.ring t .get } t (.getIn k) := by unfold step; simp only [hp]
    rw [this]
    refine h.enterQueue t .get (.getIn k) h1 ⟨h2, Or.inl ⟨?_, h3⟩⟩
    unfold Ring.call; simp only [h1]; simp [upd, Ring.phase]
  | wSize =>
    rw [hp] at hpc
    obtain ⟨h1, h2, h3⟩ := hpc.of_simple rfl
    refine ⟨put, taken, phase, held, apc, base, (by unfold step; simp only [hp]; rfl), ?_⟩
    have : step c f t ch = setPc { f with ring := Ring.call f.ring t .size } t .sizeIn := by unfold step; simp only [hp]
    rw [this]
    refine h.enterQueue t .size .sizeIn h1 ⟨h2, Or.inl ⟨?_, h3⟩⟩
    unfold Ring.call; simp only [h1]; simp [upd, Ring.phase]
  | count =>
    rw [hp] at hpc
    obtain ⟨h1, r, n, h2, h3, h4, h5⟩ := hpc
    have hst : step c f t ch = setPc { f with size := Sink.addSize f.size r.val.message.length } t .release := by
      unfold step; simp only [hp, read_val h h2]
    refine ⟨put, taken, upd phase n .counted, held, upd apc t (.release n), base, ?_, ?_⟩
    · show abs _ _ _ _ _ _ = SinkConc.step c _ t ch
      rw [hst]
      unfold SinkConc.step
      have h4' : (abs f put taken phase held apc).pc t = .count n := h4
      simp only [h4']
      have : (abs f put taken phase held apc).put.getD n ⟨0, 0, [], [], .off, []⟩ = r.val := by
        show put.getD n _ = _
        rw [List.getD_eq_getElem?_getD, ref_put h h2 h3 h5]; rfl
      rw [this]; rfl
    · rw [hst]
      exact h.still t { f with size := Sink.addSize f.size r.val.message.length } .release (.release n) rfl rfl rfl ⟨h1, r, n, h2, h3, rfl, h5⟩
  | release =>
    rw [hp] at hpc
    obtain ⟨h1, r, n, h2, h3, h4, h5⟩ := hpc
    have hst : step c f t ch = setPc { f with ring := dropRef f.ring t } t .decide := by unfold step; simp only [hp]
    refine ⟨put, taken, upd phase n .ready, held, upd apc t .decide, base, ?_, ?_⟩
    · show abs _ _ _ _ _ _ = SinkConc.step c _ t ch
      rw [hst]
      unfold SinkConc.step
      have h4' : (abs f put taken phase held apc).pc t = .release n := h4
      simp only [h4']; rfl
    · rw [hst]; exact h.dropStep t .decide .decide h2 h1 rfl
  | uncount k =>
    rw [hp] at hpc
    obtain ⟨h1, r, h2, h3, h4⟩ := hpc
    have hst : step c f t ch = setPc { f with size := Sink.subSize f.size r.val.message.length } t (.unref k r.val) := by
      unfold step; simp only [hp, read_val h h2]
    refine ⟨put, taken, phase, held, upd apc t (.unref k r.val), base, ?_, ?_⟩
    · show abs _ _ _ _ _ _ = SinkConc.step c _ t ch
      rw [hst]
      unfold SinkConc.step
      have h4' : (abs f put taken phase held apc).pc t = .uncount k r.val := h4
      simp only [h4']; rfl
    · rw [hst]
      exact h.still t { f with size := Sink.subSize f.size r.val.message.length } (.unref k r.val) _ rfl rfl rfl ⟨h1, r, h2, h3, rfl⟩
  | unref k e =>
    rw [hp] at hpc
    obtain ⟨h1, r, h2, h3, h4⟩ := hpc
    have hst : step c f t ch = setPc { f with ring := dropRef f.ring t } t (.write k (some e)) := by unfold step; simp only [hp]
    refine ⟨put, taken, phase, false, upd apc t (.write k (some e)), base, ?_, ?_⟩
    · show abs _ _ _ _ _ _ = SinkConc.step c _ t ch
      rw [hst]
      unfold SinkConc.step
      have h4' : (abs f put taken phase held apc).pc t = .unref k e := h4
      simp only [h4']; rfl
    · rw [hst]; exact h.dropStep t (.write k (some e)) _ h2 h1 rfl
  | sCall k =>
    rw [hp] at hpc
    obtain ⟨h1, r, h2, h3, h4⟩ := hpc
    have hst : step c f t ch = setPc { f with run := f.run ++ [r.val], calls := f.calls ++ SinkConc.sysCalls c f.run r.val, written := f.written ++ [r.val] } t (.sUncount k) := by
      unfold step; simp only [hp, read_val h h2]
    refine ⟨put, taken, phase, held, upd apc t (.sUncount k r.val), base, ?_, ?_⟩
    · show abs _ _ _ _ _ _ = SinkConc.step c _ t ch
      rw [hst]
      unfold SinkConc.step
      have h4' : (abs f put taken phase held apc).pc t = .sCall k r.val := h4
      simp only [h4']; rfl
    · rw [hst]
      exact h.still t { f with run := f.run ++ [r.val], calls := f.calls ++ SinkConc.sysCalls c f.run r.val, written := f.written ++ [r.val] } (.sUncount k) _ rfl rfl rfl ⟨h1, r, h2, h3, rfl⟩
  | sUncount k =>
    rw [hp] at hpc
    obtain ⟨h1, r, h2, h3, h4⟩ := hpc
    have hst : step c f t ch = setPc { f with size := Sink.subSize f.size r.val.message.length } t (.sUnref k) := by
      unfold step; simp only [hp, read_val h h2]
    refine ⟨put, taken, phase, held, upd apc t (.sUnref k r.val), base, ?_, ?_⟩
    · show abs _ _ _ _ _ _ = SinkConc.step c _ t ch
      rw [hst]
      unfold SinkConc.step
      have h4' : (abs f put taken phase held apc).pc t = .sUncount k r.val := h4
      simp only [h4']; rfl
    · rw [hst]
      exact h.still t { f with size := Sink.subSize f.size r.val.message.length } (.sUnref k) _ rfl rfl rfl ⟨h1, r, h2, h3, rfl⟩
  | sUnref k =>
    rw [hp] at hpc
    obtain ⟨h1, r, h2, h3, h4⟩ := hpc
    have hst : step c f t ch = setPc { f with ring := dropRef f.ring t } t (.get k) := by unfold step; simp only [hp]
    refine ⟨put, taken, phase, false, upd apc t (.get k), base, ?_, ?_⟩
    · show abs _ _ _ _ _ _ = SinkConc.step c _ t ch
      rw [hst]
      unfold SinkConc.step
      have h4' : (abs f put taken phase held apc).pc t = .sUnref k r.val := h4
      simp only [h4']; rfl
    · rw [hst]; exact h.dropStep t (.get k) _ h2 h1 rfl
  | decide =>
    rw [hp] at simp1
    by_cases hl : c.latency0 = true
    · exact simp1 f (.enter .done) _ rfl (by unfold step; simp only [hp]; rw [if_pos hl]) rfl rfl rfl rfl (fun ha => by
        unfold SinkConc.step; simp only [show (abs f put taken phase held apc).pc t = .decide from ha]; rw [if_pos hl])
    · by_cases hmk : c.mark ≤ f.size
      · exact simp1 f .async _ rfl (by unfold step; simp only [hp]; rw [if_neg hl, if_pos hmk]) rfl rfl rfl rfl (fun ha => by
          unfold SinkConc.step; simp only [show (abs f put taken phase held apc).pc t = .decide from ha]; rw [if_neg hl]; exact if_pos hmk)
      · exact simp1 f .idle _ rfl (by unfold step; simp only [hp]; rw [if_neg hl, if_neg hmk]) rfl rfl rfl rfl (fun ha => by
          unfold SinkConc.step; simp only [show (abs f put taken phase held apc).pc t = .decide from ha]; rw [if_neg hl]; exact if_neg hmk)
  | async =>
    rw [hp] at simp1
    by_cases hl : c.latency0 = true
    · exact simp1 f (.enter .done) _ rfl (by unfold step; simp only [hp]; rw [if_pos hl]) rfl rfl rfl rfl (fun ha => by
        unfold SinkConc.step; simp only [show (abs f put taken phase held apc).pc t = .async from ha]; rw [if_pos hl])
    · exact simp1 { f with needFlush := true } .idle _ rfl (by unfold step; simp only [hp]; rw [if_neg hl]) rfl rfl rfl rfl (fun ha => by
        unfold SinkConc.step; simp only [show (abs f put taken phase held apc).pc t = .async from ha]; rw [if_neg hl]; rfl)
  | rotate =>
    rw [hp] at simp1
    by_cases hl : c.isFile = true
    · exact simp1 { f with needRotate := true } .async _ rfl (by unfold step; simp only [hp]; rw [if_pos hl]) rfl rfl rfl rfl (fun ha => by
        unfold SinkConc.step; simp only [show (abs f put taken phase held apc).pc t = .rotate from ha]; rw [if_pos hl]; rfl)
    · exact simp1 f .idle _ rfl (by unfold step; simp only [hp]; rw [if_neg hl]) rfl rfl rfl rfl (fun ha => by
        unfold SinkConc.step; simp only [show (abs f put taken phase held apc).pc t = .rotate from ha]; rw [if_neg hl])
  | enter k =>
    rw [hp] at simp1
    by_cases hl : f.flag = true
    · exact simp1 f (afterFlush k) _ rfl (by unfold step; simp only [hp]; rw [if_pos hl]) rfl rfl rfl (hafter k) (fun ha => by
        unfold SinkConc.step; simp only [show (abs f put taken phase held apc).pc t = .enter k from ha]; exact if_pos hl)
    · exact simp1 { f with flag := true, run := [] } (.get k) _ rfl (by unfold step; simp only [hp]; rw [if_neg hl]) rfl rfl rfl rfl (fun ha => by
        unfold SinkConc.step; simp only [show (abs f put taken phase held apc).pc t = .enter k from ha]; exact if_neg hl)
  | write k e =>
    rw [hp] at simp1
    cases e with
    | none => exact simp1 f (.casRotate k) _ rfl (by unfold step; simp only [hp]) rfl rfl rfl rfl (fun ha => by
        unfold SinkConc.step; simp only [show (abs f put taken phase held apc).pc t = .write k none from ha])
    | some e =>
      by_cases hl : f.isOpen = true
      · exact simp1 { f with dev := f.dev ++ (f.sbuf ++ c.render e).take ch.spill, sbuf := (f.sbuf ++ c.render e).drop ch.spill, written := f.written ++ [e] }
          (.casFlush k) _ rfl (by unfold step; simp only [hp]; rw [if_pos hl]) rfl rfl rfl rfl (fun ha => by
          unfold SinkConc.step; simp only [show (abs f put taken phase held apc).pc t = .write k (some e) from ha]; exact if_pos hl)
      · exact simp1 f (.casFlush k) _ rfl (by unfold step; simp only [hp]; rw [if_neg hl]) rfl rfl rfl rfl (fun ha => by
          unfold SinkConc.step; simp only [show (abs f put taken phase held apc).pc t = .write k (some e) from ha]; exact if_neg hl)
  | casFlush k =>
    rw [hp] at simp1
    by_cases hl : (f.needFlush && ch.casOk) = true
    · exact simp1 { f with needFlush := false } (.sync k) _ rfl (by unfold step; simp only [hp]; rw [if_pos hl]) rfl rfl rfl rfl (fun ha => by
        unfold SinkConc.step; simp only [show (abs f put taken phase held apc).pc t = .casFlush k from ha]; exact if_pos hl)
    · exact simp1 f (.casRotate k) _ rfl (by unfold step; simp only [hp]; rw [if_neg hl]) rfl rfl rfl rfl (fun ha => by
        unfold SinkConc.step; simp only [show (abs f put taken phase held apc).pc t = .casFlush k from ha]; exact if_neg hl)
  | sync k =>
    rw [hp] at simp1
    exact simp1 { f with dev := f.dev ++ f.sbuf, sbuf := [] } (.casRotate k) _ rfl (by unfold step; simp only [hp]) rfl rfl rfl rfl (fun ha => by
        unfold SinkConc.step; simp only [show (abs f put taken phase held apc).pc t = .sync k from ha]; rfl)
  | casRotate k =>
    rw [hp] at simp1
    by_cases hl : (c.isFile && (f.needRotate && ch.casOk)) = true
    · exact simp1 { f with needRotate := false } (.reopen k) _ rfl (by unfold step; simp only [hp]; rw [if_pos hl]) rfl rfl rfl rfl (fun ha => by
        unfold SinkConc.step; simp only [show (abs f put taken phase held apc).pc t = .casRotate k from ha]; exact if_pos hl)
    · exact simp1 f (.leave k) _ rfl (by unfold step; simp only [hp]; rw [if_neg hl]) rfl rfl rfl rfl (fun ha => by
        unfold SinkConc.step; simp only [show (abs f put taken phase held apc).pc t = .casRotate k from ha]; exact if_neg hl)
  | reopen k =>
    rw [hp] at simp1
    by_cases hl : ch.openOk = true
    · exact simp1 { f with isOpen := true, gens := f.gens ++ [f.dev ++ f.sbuf], dev := [], sbuf := [] } (.leave k) _ rfl (by unfold step; simp only [hp]; rw [if_pos hl]) rfl rfl rfl rfl (fun ha => by
        unfold SinkConc.step; simp only [show (abs f put taken phase held apc).pc t = .reopen k from ha]; exact if_pos hl)
    · exact simp1 f (.leave k) _ rfl (by unfold step; simp only [hp]; rw [if_neg hl]) rfl rfl rfl rfl (fun ha => by
        unfold SinkConc.step; simp only [show (abs f put taken phase held apc).pc t = .reopen k from ha]; exact if_neg hl)
  | leave k =>
    rw [hp] at simp1
    exact simp1 { f with flag := false } (afterFlush k) _ rfl (by unfold step; simp only [hp]) rfl rfl rfl (hafter k) (fun ha => by
        unfold SinkConc.step; simp only [show (abs f put taken phase held apc).pc t = .leave k from ha]; rfl)
  | sClear k =>
    rw [hp] at simp1
    exact simp1 { f with needFlush := false } (.leave k) _ rfl (by unfold step; simp only [hp]) rfl rfl rfl rfl (fun ha => by
        unfold SinkConc.step; simp only [show (abs f put taken phase held apc).pc t = .sClear k from ha]; rfl)
  | wWait =>
    by_cases hl : ch.timeout = true
    · rw [hp] at simp1
      dsimp only
      rw [hl]
      exact simp1 f (.enter .worker) _ rfl (by unfold step; simp only [hp]; rw [if_pos hl]) rfl rfl rfl rfl (fun ha => by
        unfold SinkConc.step; simp only [show (abs f put taken phase held apc).pc t = .wWait from ha]; exact if_pos hl)
    · dsimp only
      rw [Bool.eq_false_iff.2 hl]
      exact same (by unfold step; simp only [hp]; rw [if_neg hl])
  | wCheck =>
    rw [hp] at simp1
    by_cases hl : (f.needFinalize && ch.newest) = true
    · exact simp1 f .wSize _ rfl (by unfold step; simp only [hp]; rw [if_pos hl]) rfl rfl rfl rfl (fun ha => by
        unfold SinkConc.step; simp only [show (abs f put taken phase held apc).pc t = .wCheck from ha]; exact if_pos hl)
    · exact simp1 f .wWait _ rfl (by unfold step; simp only [hp]; rw [if_neg hl]) rfl rfl rfl rfl (fun ha => by
        unfold SinkConc.step; simp only [show (abs f put taken phase held apc).pc t = .wCheck from ha]; exact if_neg hl)
  | dStart =>
    rw [hp] at simp1
    by_cases hl : c.latency0 = true
    · exact simp1 f (.enter .destroy) _ rfl (by unfold step; simp only [hp]; rw [if_pos hl]) rfl rfl rfl rfl (fun ha => by
        unfold SinkConc.step; simp only [show (abs f put taken phase held apc).pc t = .dStart from ha]; exact if_pos hl)
    · exact simp1 { f with needFinalize := true } .dAsync _ rfl (by unfold step; simp only [hp]; rw [if_neg hl]) rfl rfl rfl rfl (fun ha => by
        unfold SinkConc.step; simp only [show (abs f put taken phase held apc).pc t = .dStart from ha]; exact if_neg hl)
  | dAsync =>
    rw [hp] at simp1
    exact simp1 { f with needFlush := true } .dJoin _ rfl (by unfold step; simp only [hp]) rfl rfl rfl rfl (fun ha => by
        unfold SinkConc.step; simp only [show (abs f put taken phase held apc).pc t = .dAsync from ha]; rfl)
  | dJoin =>
    by_cases hl : f.pc workerTid = .wExit
    · rw [hp] at simp1
      have hw := h.pcs workerTid
      rw [hl] at hw
      have hw := (hw.of_simple rfl).2.2
      dsimp only
      rw [decide_eq_true hl]
      exact simp1 f .dEnd _ rfl (by unfold step; simp only [hp]; rw [if_pos hl]) rfl rfl rfl rfl (fun ha => by
        unfold SinkConc.step; simp only [show (abs f put taken phase held apc).pc t = .dJoin from ha]; exact if_pos hw)
    · dsimp only
      rw [decide_eq_false hl]
      exact same (by unfold step; simp only [hp]; rw [if_neg hl])
  | dEnd =>
    rw [hp] at simp1
    by_cases hl : c.isFile = true
    · exact simp1 { f with dev := f.dev ++ f.sbuf, sbuf := [] } .dead _ rfl (by unfold step; simp only [hp]; rw [if_pos hl]) rfl rfl rfl rfl (fun ha => by
        unfold SinkConc.step; simp only [show (abs f put taken phase held apc).pc t = .dEnd from ha]; exact if_pos hl)
    · exact simp1 f .dead _ rfl (by unfold step; simp only [hp]; rw [if_neg hl]) rfl rfl rfl rfl (fun ha => by
        unfold SinkConc.step; simp only [show (abs f put taken phase held apc).pc t = .dEnd from ha]; exact if_neg hl)

/-- **Refinement**: every reachable state of the sink on the real queue corresponds to a reachable state of the sink on an atomic one. -/
theorem refines {c : Cfg} {o : Bool} (hcap : 0 < c.capacity) {f : St} (hf : Reach c o f) :
    ∃ put taken phase held apc base, SinkConc.Reach c o (abs f put taken phase held apc) ∧ R c f put taken apc base := by
  induction hf with
  | init =>
    refine ⟨[], 0, fun _ => .made, false, (SinkConc.init c o).pc, 0, .init, Ring.inv_init hcap, rfl, rfl, fun t => ?_⟩
    refine PCR.simple_intro rfl rfl ?_
    show simple (if t = workerTid then (if c.latency0 || !o then PC.wExit else .wWait) else .idle) =
      some (if t = workerTid then (if c.latency0 || !o then SinkConc.PC.wExit else .wWait) else .idle)
    split
    · split <;> rfl
    · rfl
  | @next f f' hf he ih =>
    obtain ⟨put, taken, phase, held, apc, base, hr, hR⟩ := ih
    cases he with
    | step t ch =>
      obtain ⟨put', taken', phase', held', apc', base', hm, hR'⟩ := sim_step hR hr t ch
      refine ⟨put', taken', phase', held', apc', base', ?_, hR'⟩
      rw [hm]
      split
      · exact .next hr (.step _ t ch)
      · exact hr
    | call t ht hi hd call =>
      have hpc := hR.pcs t
      rw [hi] at hpc
      have hidle := (hpc.of_simple rfl).2.2
      have := SinkConc.Reach.next hr (SinkConc.Exec.call _ t ht hidle hd call)
      cases call with
      | push e => exact ⟨put, taken, phase, held, upd apc t (.put e), base, this, hR.simple t f (.put e) _ rfl rfl rfl (by rw [hi]; rfl) rfl⟩
      | flush => exact ⟨put, taken, phase, held, upd apc t (.enter .done), base, this, hR.simple t f (.enter .done) _ rfl rfl rfl (by rw [hi]; rfl) rfl⟩
      | asyncFlush => exact ⟨put, taken, phase, held, upd apc t .async, base, this, hR.simple t f .async _ rfl rfl rfl (by rw [hi]; rfl) rfl⟩
      | rotate => exact ⟨put, taken, phase, held, upd apc t .rotate, base, this, hR.simple t f .rotate _ rfl rfl rfl (by rw [hi]; rfl) rfl⟩
    | destroy t ht hd hi =>
      have hidle : ∀ u, u ≠ workerTid → apc u = .idle := by
        intro u hu
        have hpc := hR.pcs u
        rw [hi u hu] at hpc
        exact (hpc.of_simple rfl).2.2
      exact ⟨put, taken, phase, held, upd apc t .dStart, base, .next hr (.destroy _ t ht hd hidle),
        hR.simple t { f with owner := some t } .dStart _ rfl rfl rfl (by rw [hi t ht]; rfl) rfl⟩

end SinkFull
end Soralog
