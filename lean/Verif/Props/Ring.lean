import Verif.Proofs.RingProgress
/-! # C01–C05: the circular buffer -/
namespace Soralog
namespace Ring
open Spec

variable {T : Type}

/-- **C01** (linearizability).  For every capacity ≥ 1, every schedule of calls, atomic steps and `NodeRef`
releases by any number of threads: the recorded effects, executed one at a time on a plain bounded FIFO queue,
give exactly the recorded answers, and each thread's calls take effect exactly once between call and return and
return that answer; a thread is outside every call exactly when all its recorded calls have returned. -/
theorem C01_linearizable (cap : Nat) (hc : 0 < cap) (as : List (Act T)) :
    (∃ q, Legal cap (exec (init T cap) as).log q) ∧
    ∀ t, ∃ p, Proto t (exec (init T cap) as).log p ∧
      (p = .idle ↔ (exec (init T cap) as).pc t = .idle) := by
  obtain ⟨q, base, h⟩ := inv_reach hc as
  refine ⟨⟨q, h.legal⟩, fun t => ⟨_, h.proto t, ?_⟩⟩
  cases (exec (init T cap) as).pc t <;> simp [phase]

theorem legal_conserve {cap : Nat} {h : List (Entry T)} {q : List T} (hl : Legal cap h q) :
    putsOf none h = getsOf h ++ q := by
  induction hl with
  | nil => rfl
  | inv t c _ ih => simpa [putsOf, getsOf, List.filterMap_append] using ih
  | ret t r _ ih => simpa [putsOf, getsOf, List.filterMap_append] using ih
  | @lin h q t c _ ih =>
    have e1 : ∀ e : Entry T, putsOf none (h ++ [e]) = putsOf none h ++ putsOf none [e] := by
      intro e; simp [putsOf, List.filterMap_append]
    have e2 : ∀ e : Entry T, getsOf (h ++ [e]) = getsOf h ++ getsOf [e] := by
      intro e; simp [getsOf, List.filterMap_append]
    rw [e1, e2, ih]
    cases c with
    | put v =>
      simp only [Queue.run]
      split <;> simp [putsOf, getsOf]
    | get =>
      cases q with
      | nil => simp [Queue.run, putsOf, getsOf]
      | cons x xs => simp [Queue.run, putsOf, getsOf]
    | size => simp [Queue.run, putsOf, getsOf]
    | avail => simp [Queue.run, putsOf, getsOf]
    | capacity => simp [Queue.run, putsOf, getsOf]

/-- **C01**, the consequence users rely on: the elements taken out so far are exactly the elements put so far,
in the same order, minus the `size` last ones, which are still inside. -/
theorem C01_nothing_lost (cap : Nat) (hc : 0 < cap) (as : List (Act T)) :
    ∃ q, q.length = (exec (init T cap) as).buf.size ∧
      putsOf none (exec (init T cap) as).log = getsOf (exec (init T cap) as).log ++ q := by
  obtain ⟨q, base, h⟩ := inv_reach hc as
  exact ⟨q, h.len, legal_conserve h.legal⟩

/-- **C01**, the answer of a successful `get` is what its `NodeRef` shows: whenever a step of `t` makes a call
return `got v`, `t` then holds a live reference from `get` whose element is `v`. -/
theorem C01_get_returns_element (cap : Nat) (hc : 0 < cap) (as : List (Act T)) (t : Tid) (v : T)
    (h : (tick (exec (init T cap) as) t).log = (exec (init T cap) as).log ++ [.ret t (.got v)]) :
    ∃ r ∈ (tick (exec (init T cap) as) t).refs, r.owner = t ∧ r.fromGet = true ∧
      (tick (exec (init T cap) as) t).buf.item r.slot = some v := by
  obtain ⟨q, base, hI⟩ := inv_reach (T := T) hc as
  generalize exec (init T cap) as = s at h hI ⊢
  have key : ∃ r ∈ (tick s t).refs, r.owner = t ∧ r.fromGet = true ∧ r.val = v := by
    unfold tick at h ⊢
    generalize hp : s.pc t = p at h
    cases p <;> dsimp only at h ⊢
    case getUnlock k u =>
      have : u = v := by simpa using h
      exact ⟨_, List.mem_append_right _ (List.mem_singleton.2 rfl), rfl, rfl, this⟩
    all_goals
      (repeat' split at h) <;> simp at h
  obtain ⟨q', base', hI'⟩ := inv_tick hI t
  obtain ⟨r, hr, h1, h2, h3⟩ := key
  exact ⟨r, hr, h1, h2, by rw [(hI'.refOk r hr).1, h3]⟩

/-- **C02**.  In every reachable state every live `NodeRef` refers to a fully constructed element equal to the
value its call dealt with, different live references refer to different slots, and no thread inside a call has
the slot of a live reference as its own (so no thread is constructing, or about to overwrite, that element). -/
theorem C02_noderef_owns (cap : Nat) (hc : 0 < cap) (as : List (Act T)) :
    let s := exec (init T cap) as
    (∀ r ∈ s.refs, s.buf.item r.slot = some r.val ∧ r.slot < cap) ∧
    (s.refs.map Ref.slot).Nodup ∧
    (∀ t k v, (s.pc t = .putInit v k ∨ s.pc t = .putBuild v k) → ∀ r ∈ s.refs, r.slot ≠ k) := by
  obtain ⟨q, base, h⟩ := inv_reach (T := T) hc as
  refine ⟨h.refOk, h.uniqR, ?_⟩
  rintro t k v (hp | hp) r hr
  · exact h.uniqTR t k (by rw [hp]; rfl) r hr
  · exact h.uniqTR t k (by rw [hp]; rfl) r hr

/-- **C02**, stability: while a reference is alive, no action of anybody changes the element it refers to. -/
theorem C02_stable (cap : Nat) (hc : 0 < cap) (as bs : List (Act T)) (r : Ref T)
    (h1 : r ∈ (exec (init T cap) as).refs) (h2 : r ∈ (exec (init T cap) (as ++ bs)).refs) :
    (exec (init T cap) (as ++ bs)).buf.item r.slot = (exec (init T cap) as).buf.item r.slot := by
  rw [((C02_noderef_owns cap hc as).1 r h1).1, ((C02_noderef_owns cap hc (as ++ bs)).1 r h2).1]

/-- **C02**, a reference from `put` refers to an element of the queue, a reference from `get` to one that has
left it: a writer's and a reader's references never denote the same queue element. -/
theorem C02_put_get_disjoint (cap : Nat) (hc : 0 < cap) (as : List (Act T)) :
    let s := exec (init T cap) as
    ∀ r ∈ s.refs, ∀ r' ∈ s.refs, r.fromGet = true → r'.fromGet = false → r.slot ≠ r'.slot := by
  obtain ⟨q, base, h⟩ := inv_reach (T := T) hc as
  intro s r hr r' hr' hf hf'
  obtain ⟨i, hi, e, _⟩ := h.refPut r' hr' hf'
  rw [e]; exact h.refGet r hr hf i hi

/-- **C03**.  No schedule on a buffer of capacity ≥ 1 indexes outside the slots, divides by zero, trips an
assertion or reads an unconstructed element; the size never exceeds the capacity; both indices stay in range. -/
theorem C03_bounds (cap : Nat) (hc : 0 < cap) (as : List (Act T)) :
    (exec (init T cap) as).ub = false ∧ (exec (init T cap) as).buf.size ≤ cap ∧
    (exec (init T cap) as).buf.capacity = cap := by
  obtain ⟨q, base, h⟩ := inv_reach (T := T) hc as
  exact ⟨h.ub, h.sizeLe, h.capEq⟩

/-- **C03**, what the observers answer: every number ever returned by `size()` is at most the capacity, and is,
with the answer of `avail()` taken at the same instant, exactly the capacity. -/
theorem C03_observers (cap : Nat) (q : List T) (h : List (Entry T)) (hl : Legal cap h q) :
    q.length ≤ cap ∧ ∃ n m, Queue.run cap q .size = (.num n, q) ∧ Queue.run cap q .avail = (.num m, q) ∧
      Queue.run cap q .capacity = (.num cap, q) ∧ n ≤ cap ∧ n + m = cap := by
  have hle : q.length ≤ cap := by
    induction hl with
    | nil => simp
    | inv _ _ _ ih => exact ih
    | ret _ _ _ ih => exact ih
    | lin t c _ ih =>
      cases c with
      | put v => simp only [Queue.run]; split <;> simp <;> omega
      | get => simp only [Queue.run]; split <;> simp_all; omega
      | size => exact ih
      | avail => exact ih
      | capacity => exact ih
  exact ⟨hle, q.length, cap - q.length, rfl, rfl, rfl, hle, by omega⟩

theorem legal_cut {cap : Nat} {h : List (Entry T)} {q : List T} (hl : Legal cap h q) :
    ∀ h1 t c r h2, h = h1 ++ .lin t c r :: h2 → ∃ q1, Legal cap h1 q1 ∧ r = (Queue.run cap q1 c).1 := by
  have snoc : ∀ (h : List (Entry T)) (e : Entry T) (h1 : List (Entry T)) (x : Entry T) (h2 : List (Entry T)),
      h ++ [e] = h1 ++ x :: h2 → (h = h1 ∧ e = x) ∨ ∃ h3, h = h1 ++ x :: h3 := by
    intro h e h1 x h2 he
    rcases List.eq_nil_or_concat h2 with rfl | ⟨h3, y, rfl⟩
    · have := List.append_inj_left' he rfl
      have h' := List.append_inj_right' he rfl
      exact .inl ⟨this, by simpa using h'⟩
    · right
      have he' : h ++ [e] = (h1 ++ x :: h3) ++ [y] := by simpa using he
      exact ⟨h3, List.append_inj_left' he' rfl⟩
  induction hl with
  | nil => intro h1 t c r h2 he; simp at he
  | @inv h q t' c' hh ih =>
    intro h1 t c r h2 he
    rcases snoc _ _ _ _ _ he with ⟨_, e⟩ | ⟨h3, e⟩
    · cases e
    · exact ih _ _ _ _ _ e
  | @ret h q t' r' hh ih =>
    intro h1 t c r h2 he
    rcases snoc _ _ _ _ _ he with ⟨_, e⟩ | ⟨h3, e⟩
    · cases e
    · exact ih _ _ _ _ _ e
  | @lin h q t' c' hh ih =>
    intro h1 t c r h2 he
    rcases snoc _ _ _ _ _ he with ⟨e1, e⟩ | ⟨h3, e⟩
    · cases e; subst e1; exact ⟨q, hh, rfl⟩
    · exact ih _ _ _ _ _ e

/-- **C03**, what the observers of the running buffer answer: whenever, in any schedule, `size()`, `avail()` or `capacity()` of any thread takes effect
(which is once, between its call and its return, and with the answer it returns: C01), the answer of `size()` is the number of elements put and not yet
taken, the answer of `avail()` the number of places left, that of `capacity()` the capacity; the first two are at most the capacity. -/
theorem C03_answers (cap : Nat) (hc : 0 < cap) (as : List (Act T)) (h1 h2 : List (Entry T)) (t : Tid) (c : Call T) (n : Nat)
    (hlog : (exec (init T cap) as).log = h1 ++ .lin t c (.num n) :: h2) :
    (getsOf h1).length ≤ (putsOf none h1).length ∧ n ≤ cap ∧
    match c with
    | .size => n = (putsOf none h1).length - (getsOf h1).length
    | .avail => n + ((putsOf none h1).length - (getsOf h1).length) = cap
    | .capacity => n = cap
    | .put _ => False
    | .get => False := by
  obtain ⟨⟨q, hl⟩, _⟩ := C01_linearizable cap hc as
  obtain ⟨q1, hl1, hr⟩ := legal_cut hl _ _ _ _ _ hlog
  have hle := (C03_observers cap q1 h1 hl1).1
  have hcons := congrArg List.length (legal_conserve hl1)
  rw [List.length_append] at hcons
  cases c with
  | put v => simp only [Queue.run] at hr; split at hr <;> cases hr
  | get => simp only [Queue.run] at hr; split at hr <;> cases hr
  | size => simp only [Queue.run, Ret.num.injEq] at hr; refine ⟨by omega, by omega, ?_⟩; dsimp only; omega
  | avail => simp only [Queue.run, Ret.num.injEq] at hr; refine ⟨by omega, by omega, ?_⟩; dsimp only; omega
  | capacity => simp only [Queue.run, Ret.num.injEq] at hr; exact ⟨by omega, by omega, hr⟩

/-- a schedule with two puts, a get and then `size()` and `avail()` -/
example : (exec (init Nat 3) ([.call 0 (.put 7)] ++ List.replicate 8 (.step 0) ++ [.drop 0, .call 1 (.put 8)] ++ List.replicate 8 (.step 1) ++
    [.drop 0, .call 0 .get] ++ List.replicate 6 (.step 0) ++ [.call 0 .avail, .step 0, .step 0])).log =
    [.inv 0 (.put 7), .lin 0 (.put 7) .stored, .ret 0 .stored, .inv 1 (.put 8), .lin 1 (.put 8) .stored, .ret 1 .stored,
      .inv 0 .get, .lin 0 .get (.got 7), .ret 0 (.got 7), .inv 0 .avail] ++ .lin 0 .avail (.num 2) :: [] := rfl

/-- **C03**, the excluded point: with capacity 0 the very first `put` leaves the bounds. -/
theorem C03_capacity_zero_refuted (v : T) :
    (exec (init T 0) [.call 0 (.put v), .step 0, .step 0, .step 0]).ub = true := rfl

/-- **C04**.  From every reachable state every pending call can complete by steps already under way and
releases of references alone (no new calls needed). -/
theorem C04_can_complete (cap : Nat) (hc : 0 < cap) (as : List (Act T)) (t : Tid) :
    ∃ bs, NoCalls bs ∧ (exec (init T cap) (as ++ bs)).pc t = .idle := by
  obtain ⟨q, base, h⟩ := inv_reach (T := T) hc as
  obtain ⟨bs, h1, h2⟩ := can_finish h t
  exact ⟨bs, h1, by rw [exec_append]; exact h2⟩

/-- **C04**, the lock is never left held by a returned call: when the lock is held, its holder is exactly one
thread inside a call, and five steps of that thread, whatever the others' positions, release it. -/
theorem C04_lock_released (cap : Nat) (hc : 0 < cap) (as : List (Act T))
    (hb : (exec (init T cap) as).buf.busy = true) :
    ∃ t, (exec (init T cap) as).pc t ≠ .idle ∧
      ∃ n, n ≤ 5 ∧ (exec (init T cap) (as ++ List.replicate n (.step t))).buf.busy = false := by
  obtain ⟨q, base, h⟩ := inv_reach (T := T) hc as
  obtain ⟨t, ht⟩ := h.lock.1 hb
  refine ⟨t, (by intro e; rw [e] at ht; cases ht), ?_⟩
  obtain ⟨n, hn, hr⟩ := release h ht
  exact ⟨n, hn, by rw [exec_append, ← solo_exec]; exact hr⟩

/-- **C04**, an uncontended call needs at most ten steps: when the lock is free and the slots at both ends are
free, any thread's pending call completes alone. -/
theorem C04_uncontended (cap : Nat) (hc : 0 < cap) (as : List (Act T)) (t : Tid)
    (hb : (exec (init T cap) as).buf.busy = false) (hfree : (exec (init T cap) as).refs = [])
    (hothers : ∀ t', t' ≠ t → (exec (init T cap) as).pc t' = .idle) :
    ∃ n, n ≤ 10 ∧ (exec (init T cap) (as ++ List.replicate n (.step t))).pc t = .idle := by
  obtain ⟨q, base, h⟩ := inv_reach (T := T) hc as
  generalize hs : exec (init T cap) as = s at *
  have hncs : inCS (s.pc t) = false := by
    cases hcs : inCS (s.pc t)
    · rfl
    · have := h.lock.2 ⟨t, hcs⟩; rw [hb] at this; cases this
  have hslot : slotOf (s.pc t) = none → ∀ k, s.buf.nodeBusy k = false := by
    intro hst k
    cases e : s.buf.nodeBusy k
    · rfl
    · rcases (h.owned k).1 e with ⟨t', ht'⟩ | ⟨r, hr, _⟩
      · by_cases e' : t' = t
        · subst e'; rw [hst] at ht'; cases ht'
        · rw [hothers t' e'] at ht'; cases ht'
      · rw [hfree] at hr; cases hr
  have hc : Clear s t := by
    refine ⟨Or.inr hb, ?_⟩
    generalize s.pc t = p at hncs hslot
    cases p <;> simp only [inCS] at hncs <;> first | trivial | exact hslot rfl _ | exact Or.inr (hslot rfl _) | contradiction
  obtain ⟨n, hn, hf⟩ := clear_finish h hc
  exact ⟨n, hn, by rw [exec_append, hs, ← solo_exec]; exact hf⟩

theorem filterMap_filter_tag (tag : T → Tid) (t : Tid) (h : List (Entry T))
    (htag : ∀ t' v, .lin t' (.put v) .stored ∈ h → tag v = t') :
    (putsOf none h).filter (fun v => tag v = t) = putsOf (some t) h := by
  induction h with
  | nil => rfl
  | cons e h ih =>
    have ih' := ih (fun t' v hm => htag t' v (List.mem_cons_of_mem _ hm))
    unfold putsOf at ih' ⊢
    rcases e with ⟨t', c⟩ | ⟨t', c, r⟩ | ⟨t', r⟩
    · simpa using ih'
    · cases c with
      | put v =>
        cases r with
        | stored =>
          have := htag t' v (List.mem_cons_self ..)
          subst this
          by_cases e : tag v = t
          · subst e; simpa using ih'
          · have e' : ¬ t = tag v := fun h => e h.symm
            simpa [List.filter_cons, e, e'] using ih'
        | _ => simpa using ih'
      | _ => simpa using ih'
    · simpa using ih'

/-- **C05**.  Suppose every element carries the identity of the thread that puts it (`tag`).  Then, in every
reachable state, the elements of thread `t` taken out so far are exactly the first elements `t` has put, in the
order in which `t` put them. -/
theorem C05_per_producer_order (cap : Nat) (hc : 0 < cap) (as : List (Act T)) (tag : T → Tid) (t : Tid)
    (htag : ∀ t' v, .lin t' (.put v) .stored ∈ (exec (init T cap) as).log → tag v = t') :
    (getsOf (exec (init T cap) as).log).filter (fun v => tag v = t) <+:
      putsOf (some t) (exec (init T cap) as).log := by
  obtain ⟨q, _, h⟩ := C01_nothing_lost (T := T) cap hc as
  rw [← filterMap_filter_tag tag t _ htag, h, List.filter_append]
  exact List.prefix_append _ _

/-! ## Concrete runs (the hypotheses are met by non-trivial cases) -/

/-- put 7, release; put 8, release; get → 7 -/
private def run1 : List (Act Nat) :=
  [.call 0 (.put 7)] ++ List.replicate 8 (.step 0) ++ [.drop 0] ++
  [.call 1 (.put 8)] ++ List.replicate 8 (.step 1) ++ [.drop 0] ++
  [.call 2 .get] ++ List.replicate 6 (.step 2)

example : getsOf (exec (init Nat 2) run1).log = [7] ∧ putsOf none (exec (init Nat 2) run1).log = [7, 8] ∧
    putsOf (some 1) (exec (init Nat 2) run1).log = [8] := by decide
example : (exec (init Nat 2) run1).buf.size = 1 ∧ (exec (init Nat 2) run1).refs.length = 1 ∧
    (exec (init Nat 2) run1).buf.item 0 = some 7 := by decide
/-- `C01_get_returns_element`'s hypothesis occurs -/
example : (tick (exec (init Nat 2) (run1.dropLast)) 2).log.getLast? = some (.ret 2 (.got 7)) := rfl
/-- `C04_lock_released`'s hypothesis occurs, with another thread spinning -/
example : (exec (init Nat 2) [.call 0 (.put 7), .call 1 .get, .step 0, .step 1, .step 0]).buf.busy = true := by
  decide
/-- a get that has to wait for the element under construction -/
example : (match (exec (init Nat 2) ([.call 0 (.put 7)] ++ List.replicate 6 (.step 0) ++
    [.call 1 .get] ++ List.replicate 3 (.step 1))).pc 1 with | .getRetry => true | _ => false) = true := by decide
/-- `C04_uncontended`'s hypotheses occur -/
example : (exec (init Nat 2) [.call 0 (.put 7)]).buf.busy = false ∧
    (exec (init Nat 2) [.call 0 (.put 7)]).refs.length = 0 := by decide
/-- `C05`'s tagging hypothesis: elements are pairs (thread, number) -/
example : ((exec (init (Nat × Nat) 2) ([.call 3 (.put (3, 1))] ++ List.replicate 8 (.step 3))).log.all
    fun | .lin t (.put v) .stored => decide (v.1 = t) | _ => true) = true := by decide

end Ring
end Soralog
