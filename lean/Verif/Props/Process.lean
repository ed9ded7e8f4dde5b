import Verif.Model.SyslogOpen
import Verif.Model.Thread
import Verif.Proofs.Render
/-!
# C56, C57, C58: what is shared by the process: the syslog flag, numbers and names of threads
-/
namespace Soralog

namespace SyslogOpen

/-- the sink object holds the connection to syslog: its constructor has passed the test, its destructor has not ended -/
def State.holds (s : State) (i : Nat) : Prop := s.phase i = .opening ∨ s.phase i = .live ∨ s.phase i = .closing

/-- a sink has been constructed (maybe it is destroyed by now) -/
def State.used (s : State) (i : Nat) : Prop := s.holds i ∨ s.phase i = .gone

theorem set_same (s : State) (i : Nat) (p : Phase) : (s.set i p).phase i = p := by simp [State.set]
theorem set_other (s : State) {i j : Nat} (p : Phase) (h : j ≠ i) : (s.set i p).phase j = s.phase j := by simp [State.set, h]

/-- invariant: as soon as a sink has been constructed the flag is set; all constructed sinks but one are gone -/
structure Inv (s : State) : Prop where
  flag : ∀ i, s.used i → s.flag = true
  one : ∀ i j, s.used i → s.used j → i = j

theorem used_of_set {s : State} {i j : Nat} {p : Phase} (h : j ≠ i) (hu : (s.set i p).used j) : s.used j := by
  unfold State.used State.holds at *
  rw [set_other s p h] at hu
  exact hu

theorem Reach.inv {s : State} (h : Reach s) : Inv s := by
  induction h with
  | init => exact ⟨fun i hi => (by rcases hi with (h | h | h) | h <;> cases h), fun i j hi => (by rcases hi with (h | h | h) | h <;> cases h)⟩
  | @step s s' _ hs ih =>
    cases hs with
    | acquire i h hf =>
      have hno : ∀ j, ¬ s.used j := fun j hj => by rw [ih.flag j hj] at hf; cases hf
      refine ⟨fun _ _ => rfl, fun j k hj hk => ?_⟩
      have : ∀ j, (s.set i .opening).used j → j = i := fun j hj => by
        by_cases hji : j = i
        · exact hji
        · exact absurd (used_of_set hji hj) (hno j)
      exact (this j hj).trans (this k hk).symm
    | refuse i h hf =>
      have hni : ¬ (s.set i .failed).used i := by
        unfold State.used State.holds
        rw [set_same]
        rintro ((h | h | h) | h) <;> cases h
      have key : ∀ j, (s.set i .failed).used j → s.used j := fun j hj => by
        by_cases hji : j = i
        · subst hji; exact absurd hj hni
        · exact used_of_set hji hj
      exact ⟨fun j hj => ih.flag j (key j hj), fun j k hj hk => ih.one j k (key j hj) (key k hk)⟩
    | openlog i h =>
      have key : ∀ j, (s.set i .live).used j → s.used j := fun j hj => by
        by_cases hji : j = i
        · subst hji; exact .inl (.inl h)
        · exact used_of_set hji hj
      exact ⟨fun j hj => ih.flag j (key j hj), fun j k hj hk => ih.one j k (key j hj) (key k hk)⟩
    | closelog i h =>
      have key : ∀ j, (s.set i .closing).used j → s.used j := fun j hj => by
        by_cases hji : j = i
        · subst hji; exact .inl (.inr (.inl h))
        · exact used_of_set hji hj
      exact ⟨fun j hj => ih.flag j (key j hj), fun j k hj hk => ih.one j k (key j hj) (key k hk)⟩
    | release i h =>
      have key : ∀ j, (s.set i .gone).used j → s.used j := fun j hj => by
        by_cases hji : j = i
        · subst hji; exact .inl (.inr (.inr h))
        · exact used_of_set hji hj
      exact ⟨fun _ _ => rfl, fun j k hj hk => ih.one j k (key j hj) (key k hk)⟩

/-- **C56**, first part: at any time at most one sink holds the connection, and while one does, the only thing that can happen to a
constructor that starts is that it throws. -/
theorem C56_one_partial {s : State} (h : Reach s) {i : Nat} (hi : s.holds i) :
    (∀ j, s.holds j → j = i) ∧
    ∀ j s', s.phase j = .absent → Step s s' → s'.phase j = .absent ∨ s'.phase j = .failed := by
  refine ⟨fun j hj => h.inv.one j i (.inl hj) (.inl hi), fun j s' hj hs => ?_⟩
  have hf := h.inv.flag i (.inl hi)
  cases hs with
  | acquire k hk hf' => rw [hf] at hf'; cases hf'
  | refuse k hk _ =>
    by_cases hjk : j = k
    · subst hjk; right; exact set_same ..
    · left; rw [set_other _ _ hjk]; exact hj
  | openlog k hk =>
    have hjk : j ≠ k := fun e => by subst e; rw [hj] at hk; cases hk
    left; rw [set_other _ _ hjk]; exact hj
  | closelog k hk =>
    have hjk : j ≠ k := fun e => by subst e; rw [hj] at hk; cases hk
    left; rw [set_other _ _ hjk]; exact hj
  | release k hk =>
    have hjk : j ≠ k := fun e => by subst e; rw [hj] at hk; cases hk
    left; show (s.set k _).phase j = _; rw [set_other _ _ hjk]; exact hj

/-- and then the constructor can take its step -/
theorem C56_refused_partial {s : State} (h : Reach s) {i : Nat} (hi : s.holds i) {j : Nat} (hj : s.phase j = .absent) :
    ∃ s', Step s s' ∧ s'.phase j = .failed :=
  ⟨_, .refuse s j hj (h.inv.flag i (.inl hi)), set_same ..⟩

/-- one sink is alive -/
def oneLive : State := { init.set 0 .opening with flag := true }.set 0 .live
theorem oneLive_reach : Reach oneLive := .step (.step .init (.acquire init 0 rfl rfl)) (.openlog _ 0 rfl)
example : oneLive.holds 0 ∧ oneLive.phase 1 = .absent := ⟨.inr (.inl rfl), rfl⟩

/-- **C56**, second part, is false: after a syslog sink has been constructed once -- also if it is destroyed -- no construction ever
succeeds again, in any execution. -/
theorem C56_never_again_refuted {s : State} (h : Reach s) {i : Nat} (hi : s.used i) :
    ∀ s', Reach s' → (∃ n : Nat → State, n 0 = s ∧ ∃ k, n k = s' ∧ ∀ j, j < k → Step (n j) (n (j + 1))) →
      ∀ j, j ≠ i → ¬ s'.used j := by
  intro s' hs' ⟨n, h0, k, hk, hsteps⟩ j hj hu
  have key : ∀ m, m ≤ k → Reach (n m) ∧ (n m).used i := by
    intro m
    induction m with
    | zero => intro _; rw [h0]; exact ⟨h, hi⟩
    | succ m ih =>
      intro hm
      obtain ⟨hr, hui⟩ := ih (by omega)
      have hst := hsteps m (by omega)
      refine ⟨.step hr hst, ?_⟩
      generalize n (m + 1) = t at hst
      generalize n m = u at hst hui
      have hne : u.phase i ≠ .absent := by
        intro e; rcases hui with (h | h | h) | h <;> rw [e] at h <;> cases h
      have hother : ∀ {v : Nat} {p : Phase} {b : Bool}, v ≠ i → ({ u.set v p with flag := b } : State).used i := by
        intro v p b hv
        unfold State.used State.holds at *
        show ((u.set v p).phase i = _ ∨ (u.set v p).phase i = _ ∨ (u.set v p).phase i = _) ∨ (u.set v p).phase i = _
        rw [set_other _ _ (Ne.symm hv)]; exact hui
      cases hst with
      | acquire v hv _ => exact hother (fun e => hne (e ▸ hv))
      | refuse v hv _ => exact hother (b := u.flag) (fun e => hne (e ▸ hv))
      | openlog v hv =>
        by_cases e : v = i
        · subst e; exact .inl (.inr (.inl (set_same ..)))
        · exact hother (b := u.flag) e
      | closelog v hv =>
        by_cases e : v = i
        · subst e; exact .inl (.inr (.inr (set_same ..)))
        · exact hother (b := u.flag) e
      | release v hv =>
        by_cases e : v = i
        · subst e; exact .inr (set_same ..)
        · exact hother e
  have := key k (Nat.le_refl k)
  rw [hk] at this
  exact hj (hs'.inv.one j i hu this.2)

/-- **C56 is false**: a sink is constructed and destroyed; nothing holds the connection, and a constructor that starts must throw. -/
theorem C56_refuted : ∃ s, Reach s ∧ s.phase 0 = .gone ∧ (∀ i, ¬ s.holds i) ∧ s.phase 1 = .absent ∧
    ∀ s', Step s s' → s'.phase 1 = .absent ∨ s'.phase 1 = .failed := by
  let s1 : State := { ((oneLive.set 0 .closing).set 0 .gone) with flag := true }
  have hr : Reach s1 := .step (.step oneLive_reach (.closelog _ 0 rfl)) (.release _ 0 rfl)
  have hph : ∀ i, s1.phase i = if i = 0 then .gone else .absent := by
    intro i
    show (if i = 0 then Phase.gone else if i = 0 then Phase.closing else if i = 0 then Phase.live else if i = 0 then Phase.opening else Phase.absent) = _
    by_cases h : i = 0 <;> simp [h]
  refine ⟨s1, hr, rfl, fun i hi => ?_, rfl, fun s' hs => ?_⟩
  · unfold State.holds at hi
    rw [hph i] at hi
    by_cases h : i = 0 <;> simp [h] at hi
  · generalize hs1 : s1 = t at hs
    cases hs with
    | acquire k hk hf' => rw [← hs1] at hf'; cases hf'
    | refuse k hk _ =>
      subst hs1
      by_cases hjk : 1 = k
      · subst hjk; right; exact set_same ..
      · left; rw [set_other _ _ hjk]; rfl
    | openlog k hk => subst hs1; rw [hph k] at hk; by_cases h : k = 0 <;> simp [h] at hk
    | closelog k hk => subst hs1; rw [hph k] at hk; by_cases h : k = 0 <;> simp [h] at hk
    | release k hk => subst hs1; rw [hph k] at hk; by_cases h : k = 0 <;> simp [h] at hk

end SyslogOpen

namespace Thread

/-! ## C57 -/

/-- the thread has got this number (its `tid`, or the value it is about to store there) -/
def Numbers.has (s : Numbers) (t v : Nat) : Prop := s.tid t = some v ∨ s.pending t = some v

structure NInv (s : Numbers) : Prop where
  bound : ∀ t v, s.has t v → 1 ≤ v ∧ v ≤ s.counter
  func : ∀ t v v', s.has t v → s.has t v' → v = v'
  inj : ∀ t t' v, s.has t v → s.has t' v → t = t'
  all : ∀ v, 1 ≤ v → v ≤ s.counter → ∃ t, s.has t v
  ret : ∀ t v, (t, v) ∈ s.returned → s.tid t = some v
  excl : ∀ t v, s.pending t = some v → s.tid t = none

theorem upd_same {α : Type} (f : Nat → α) (t : Nat) (v : α) : upd f t v t = v := by simp [upd]
theorem upd_other {α : Type} (f : Nat → α) {t u : Nat} (v : α) (h : u ≠ t) : upd f t v u = f u := by simp [upd, h]

theorem NReach.inv {s : Numbers} (h : NReach s) : NInv s := by
  induction h with
  | init =>
    have hno : ∀ t v, ¬ Numbers.init.has t v := fun t v h => by rcases h with h | h <;> cases h
    exact ⟨fun t v h => absurd h (hno t v), fun t v _ h => absurd h (hno t v), fun t _ v h => absurd h (hno t v),
      fun v h1 h2 => by simp [Numbers.init] at h2; omega, fun t v h => (by cases h), fun t v h => (by cases h)⟩
  | @step s s' _ hs ih =>
    cases hs with
    | bump t h1 h2 =>
      have hhas : ∀ u v, ({ s with counter := s.counter + 1, pending := upd s.pending t (some (s.counter + 1)) } : Numbers).has u v →
          (u = t ∧ v = s.counter + 1) ∨ (u ≠ t ∧ s.has u v) := by
        intro u v h
        by_cases hu : u = t
        · subst hu
          rcases h with h | h
          · rw [h1] at h; cases h
          · left
            have h : upd s.pending u (some (s.counter + 1)) u = some v := h
            rw [upd_same] at h; cases h; exact ⟨rfl, rfl⟩
        · right
          refine ⟨hu, ?_⟩
          rcases h with h | h
          · exact .inl h
          · right
            have h : upd s.pending t (some (s.counter + 1)) u = some v := h
            rwa [upd_other _ _ hu] at h
      have hback : ∀ u v, u ≠ t → s.has u v →
          ({ s with counter := s.counter + 1, pending := upd s.pending t (some (s.counter + 1)) } : Numbers).has u v := by
        intro u v hu h
        rcases h with h | h
        · exact .inl h
        · exact .inr (by show upd s.pending t _ u = _; rw [upd_other _ _ hu]; exact h)
      constructor
      · intro u v h
        rcases hhas u v h with ⟨_, e⟩ | ⟨_, h⟩
        · subst e; exact ⟨by omega, Nat.le_refl _⟩
        · have := ih.bound u v h; exact ⟨this.1, Nat.le_succ_of_le this.2⟩
      · intro u v v' h h'
        rcases hhas u v h with ⟨eu, e⟩ | ⟨nu, h⟩ <;> rcases hhas u v' h' with ⟨eu', e'⟩ | ⟨nu', h'⟩
        · rw [e, e']
        · exact absurd eu nu'
        · exact absurd eu' nu
        · exact ih.func u v v' h h'
      · intro u u' v h h'
        rcases hhas u v h with ⟨eu, e⟩ | ⟨nu, h⟩ <;> rcases hhas u' v h' with ⟨eu', e'⟩ | ⟨nu', h'⟩
        · rw [eu, eu']
        · have := (ih.bound u' v h').2; omega
        · have := (ih.bound u v h).2; omega
        · exact ih.inj u u' v h h'
      · intro v g1 g2
        by_cases hv : v = s.counter + 1
        · subst hv; exact ⟨t, .inr (upd_same ..)⟩
        · have g2 : v ≤ s.counter + 1 := g2
          obtain ⟨u, hu⟩ := ih.all v g1 (by omega)
          have hut : u ≠ t := by
            intro e; subst e
            rcases hu with h | h
            · rw [h1] at h; cases h
            · rw [h2] at h; cases h
          exact ⟨u, hback u v hut hu⟩
      · exact ih.ret
      · intro u v h
        by_cases hu : u = t
        · subst hu; exact h1
        · have h : upd s.pending t (some (s.counter + 1)) u = some v := h
          rw [upd_other _ _ hu] at h
          exact ih.excl u v h
    | keep t v h =>
      have hiff : ∀ u x, ({ s with pending := upd s.pending t none, tid := upd s.tid t (some v) } : Numbers).has u x ↔ s.has u x := by
        intro u x
        show upd s.tid t (some v) u = some x ∨ upd s.pending t none u = some x ↔ _
        by_cases hu : u = t
        · subst hu
          rw [upd_same, upd_same]
          constructor
          · rintro (e | e)
            · cases e; exact .inr h
            · cases e
          · rintro (e | e)
            · rw [ih.excl _ _ h] at e; cases e
            · rw [h] at e; cases e; exact .inl rfl
        · rw [upd_other _ _ hu, upd_other _ _ hu]; exact Iff.rfl
      constructor
      · exact fun u x hx => ih.bound u x ((hiff u x).1 hx)
      · exact fun u x y hx hy => ih.func u x y ((hiff u x).1 hx) ((hiff u y).1 hy)
      · exact fun u u' x hx hy => ih.inj u u' x ((hiff u x).1 hx) ((hiff u' x).1 hy)
      · intro x g1 g2
        obtain ⟨u, hu⟩ := ih.all x g1 g2
        exact ⟨u, (hiff u x).2 hu⟩
      · intro u x hx
        have := ih.ret u x hx
        show upd s.tid t (some v) u = _
        by_cases hu : u = t
        · subst hu; rw [ih.excl _ _ h] at this; cases this
        · rw [upd_other _ _ hu]; exact this
      · intro u x hx
        have hx : upd s.pending t none u = some x := hx
        by_cases hu : u = t
        · subst hu; rw [upd_same] at hx; cases hx
        · rw [upd_other _ _ hu] at hx
          show upd s.tid t (some v) u = none
          rw [upd_other _ _ hu]; exact ih.excl u x hx
    | ret t v h =>
      refine ⟨ih.bound, ih.func, ih.inj, ih.all, fun u x hx => ?_, ih.excl⟩
      rcases List.mem_cons.1 hx with e | hx
      · cases e; exact h
      · exact ih.ret u x hx

/-- **C57**.  Whatever the interleaving of the calls of any threads: a thread always gets the same number, different threads get
different numbers, all numbers are at least 1, and with `n` the number of threads that have taken a number so far (the counter),
the numbers are exactly 1..n (some of them may not be returned yet). -/
theorem C57_numbers {s : Numbers} (h : NReach s) :
    (∀ t v v', (t, v) ∈ s.returned → (t, v') ∈ s.returned → v = v') ∧
    (∀ t t' v, (t, v) ∈ s.returned → (t', v) ∈ s.returned → t = t') ∧
    (∀ t v, (t, v) ∈ s.returned → 1 ≤ v ∧ v ≤ s.counter) ∧
    (∀ v, 1 ≤ v → v ≤ s.counter → ∃ t, s.has t v ∧ ∀ t', s.has t' v → t' = t) :=
  ⟨fun t v v' h1 h2 => h.inv.func t v v' (.inl (h.inv.ret t v h1)) (.inl (h.inv.ret t v' h2)),
   fun t t' v h1 h2 => h.inv.inj t t' v (.inl (h.inv.ret t v h1)) (.inl (h.inv.ret t' v h2)),
   fun t v h1 => h.inv.bound t v (.inl (h.inv.ret t v h1)),
   fun v h1 h2 => by
    obtain ⟨t, ht⟩ := h.inv.all v h1 h2
    exact ⟨t, ht, fun t' ht' => h.inv.inj t' t v ht' ht⟩⟩

/-- two threads whose first calls overlap -/
example : ∃ s, NReach s ∧ s.returned = [(7, 2), (9, 1), (7, 2)] := by
  let s1 : Numbers := { Numbers.init with counter := 1, pending := upd (fun _ => none) 9 (some 1) }
  let s2 : Numbers := { s1 with counter := 2, pending := upd s1.pending 7 (some 2) }
  let s3 : Numbers := { s2 with pending := upd s2.pending 7 none, tid := upd s2.tid 7 (some 2) }
  let s4 : Numbers := { s3 with returned := [(7, 2)] }
  let s5 : Numbers := { s4 with pending := upd s4.pending 9 none, tid := upd s4.tid 9 (some 1) }
  let s6 : Numbers := { s5 with returned := [(9, 1), (7, 2)] }
  let s7 : Numbers := { s6 with returned := [(7, 2), (9, 1), (7, 2)] }
  exact ⟨s7, .step (.step (.step (.step (.step (.step (.step .init (.bump _ 9 rfl rfl)) (.bump s1 7 rfl rfl)) (.keep s2 7 2 rfl))
    (.ret s3 7 2 rfl)) (.keep s4 9 1 rfl)) (.ret s5 9 1 rfl)) (.ret s6 7 2 rfl), rfl⟩

/-! ## C58 -/

/-- a name the system can hold -/
def NameOk (n : Text) : Prop := n.length ≤ 15 ∧ '\x00' ∉ n

/-- the name of thread `t` after these operations, if it was `n` before: the last one given -/
def lastName (t : Nat) (n : Text) (ops : List NameOp) : Text :=
  ops.foldl (fun n op => match op with
    | .rename u m => if u = t then m else n
    | .set u m => if u = t then cstring (m.take 15) else n
    | .event _ => n) n

theorem cstring_ok (m : Text) : NameOk (cstring (m.take 15)) := by
  constructor
  · have := (List.takeWhile_sublist (p := (· ≠ '\x00')) (l := m.take 15)).length_le
    have h := List.length_take_le 15 m
    unfold cstring; omega
  · unfold cstring
    intro h
    have key : ∀ l : Text, '\x00' ∉ l.takeWhile (· ≠ '\x00') := by
      intro l
      induction l with
      | nil => simp
      | cons c l ih =>
        by_cases hc : c = '\x00'
        · subst hc; simp
        · rw [List.takeWhile_cons_of_pos (by simpa using hc)]
          simp only [List.mem_cons, not_or]
          exact ⟨fun e => hc e.symm, ih⟩
    exact key _ h

theorem lastName_ok {t : Nat} {n : Text} {ops : List NameOp} (hn : NameOk n) (h : ∀ u m, .rename u m ∈ ops → NameOk m) :
    NameOk (lastName t n ops) := by
  unfold lastName
  induction ops generalizing n with
  | nil => exact hn
  | cons op ops ih =>
    rw [List.foldl_cons]
    refine ih ?_ (fun u m hm => h u m (List.mem_cons_of_mem _ hm))
    cases op with
    | rename u m => dsimp only; split; exact h u m List.mem_cons_self; exact hn
    | set u m => dsimp only; split; exact cstring_ok m; exact hn
    | event u => exact hn

theorem takeWhile_pad (n : Text) (k : Nat) (h : '\x00' ∉ n) :
    (n ++ List.replicate k '\x00').takeWhile (· ≠ '\x00') = n := by
  induction n with
  | nil => cases k <;> simp
  | cons c n ih =>
    simp only [List.mem_cons, not_or] at h
    rw [List.cons_append, List.takeWhile_cons_of_pos (by simpa using fun e => h.1 e.symm), ih h.2]

/-- the padded array gives the name back -/
theorem shown_eq (n : Text) (h : NameOk n) :
    (n ++ List.replicate (16 - n.length) '\x00').take (strnlen (n ++ List.replicate (16 - n.length) '\x00') 15) = n := by
  have h15 : (n ++ List.replicate (16 - n.length) '\x00').take 15 = n ++ List.replicate (15 - n.length) '\x00' := by
    rw [List.take_append, List.take_of_length_le h.1, List.take_replicate]
    congr 2
    omega
  unfold strnlen
  rw [h15, takeWhile_pad _ _ h.2, List.take_append_of_le_length (Nat.le_refl _), List.take_length]

theorem nameStep_os (s : Names) (op : NameOp) (t : Nat) : (nameStep s op).1.os t = lastName t (s.os t) [op] := by
  cases op with
  | rename u m =>
    show upd s.os u m t = if u = t then m else s.os t
    by_cases h : t = u
    · subst h; rw [upd_same, if_pos rfl]
    · rw [upd_other _ _ h, if_neg (Ne.symm h)]
  | set u m =>
    show upd s.os u _ t = if u = t then _ else s.os t
    by_cases h : t = u
    · subst h; rw [upd_same, if_pos rfl]
    · rw [upd_other _ _ h, if_neg (Ne.symm h)]
  | event u =>
    show (getThreadName s u).1.os t = s.os t
    unfold getThreadName
    cases s.cache u <;> rfl

/-- **C58**.  Start from threads with any names the system can hold and nothing cached.  In any history of events and renamings by
anyone, let `.event t` be the first event of thread `t`, `before` what happened until then: every event of `t` shows the name `t` had
at that moment, which has at most 15 characters and no NUL, whatever happens later. -/
theorem C58_first_name (s : Names) (hc : ∀ t, s.cache t = none) (hs : ∀ t, NameOk (s.os t)) (t : Nat) (before after : List NameOp)
    (hb : .event t ∉ before) (hr : ∀ u m, .rename u m ∈ before → NameOk m) (shown : Text)
    (he : (t, shown) ∈ (nameRun s (before ++ .event t :: after)).2) :
    shown = lastName t (s.os t) before ∧ shown.length ≤ 15 ∧ '\x00' ∉ shown := by
  -- after the first event the cache is fixed
  have fixed : ∀ (ops : List NameOp) (s : Names) (n : Text), NameOk n →
      s.cache t = some (n ++ List.replicate (16 - n.length) '\x00') →
      ∀ x, (t, x) ∈ (nameRun s ops).2 → x = n := by
    intro ops
    induction ops with
    | nil => intro s n _ _ x hx; cases hx
    | cons op ops ih =>
      intro s n hn hcache x hx
      rw [nameRun] at hx
      dsimp only at hx
      rcases List.mem_append.1 hx with hx | hx
      · cases op with
        | rename => cases hx
        | set => cases hx
        | event u =>
          simp only [nameStep, Option.toList_some, List.mem_singleton] at hx
          obtain ⟨e1, e2⟩ := Prod.mk.inj hx
          subst e1
          have hg : getThreadName s t = (s, n ++ List.replicate (16 - n.length) '\x00') := by unfold getThreadName; rw [hcache]
          rw [hg] at e2
          rw [e2]
          exact shown_eq n hn
      · refine ih _ n hn ?_ x hx
        cases op with
        | rename => exact hcache
        | set => exact hcache
        | event u =>
          show (getThreadName s u).1.cache t = _
          unfold getThreadName
          cases hu : s.cache u with
          | some _ => exact hcache
          | none =>
            show upd s.cache u _ t = _
            by_cases h : t = u
            · subst h; rw [hcache] at hu; cases hu
            · rw [upd_other _ _ h]; exact hcache
  have main : ∀ (before : List NameOp) (s : Names), s.cache t = none → NameOk (s.os t) → .event t ∉ before →
      (∀ u m, .rename u m ∈ before → NameOk m) → ∀ x, (t, x) ∈ (nameRun s (before ++ .event t :: after)).2 →
      x = lastName t (s.os t) before := by
    intro before
    induction before with
    | nil =>
      intro s hc hs _ _ x hx
      rw [List.nil_append, nameRun] at hx
      dsimp only at hx
      have hg : getThreadName s t = ({ s with cache := upd s.cache t (some (s.os t ++ List.replicate (16 - (s.os t).length) '\x00')) },
          s.os t ++ List.replicate (16 - (s.os t).length) '\x00') := by unfold getThreadName; rw [hc]
      rcases List.mem_append.1 hx with hx | hx
      · simp only [nameStep, Option.toList_some, List.mem_singleton] at hx
        rw [hg] at hx
        rw [(Prod.mk.inj hx).2]
        exact shown_eq _ hs
      · refine fixed after _ (s.os t) hs ?_ x hx
        show (getThreadName s t).1.cache t = _
        rw [hg]
        exact upd_same ..
    | cons op before ih =>
      intro s hc hs hb hr x hx
      rw [List.cons_append, nameRun] at hx
      dsimp only at hx
      have hnot : op ≠ .event t := fun e => hb (e ▸ List.mem_cons_self)
      have hx : (t, x) ∈ (nameRun (nameStep s op).1 (before ++ .event t :: after)).2 := by
        rcases List.mem_append.1 hx with hx | hx
        · cases op with
          | rename => cases hx
          | set => cases hx
          | event u =>
            simp only [nameStep, Option.toList_some, List.mem_singleton] at hx
            exact absurd (by rw [(Prod.mk.inj hx).1]) hnot
        · exact hx
      have hc' : (nameStep s op).1.cache t = none := by
        cases op with
        | rename => exact hc
        | set => exact hc
        | event u =>
          show (getThreadName s u).1.cache t = _
          have hut : t ≠ u := fun e => hnot (by rw [e])
          unfold getThreadName
          cases hu : s.cache u with
          | some _ => exact hc
          | none => show upd s.cache u _ t = _; rw [upd_other _ _ hut]; exact hc
      have hos := nameStep_os s op t
      have := ih (nameStep s op).1 hc' (by
        rw [hos]
        exact lastName_ok hs (fun u m hm => hr u m (by rw [List.mem_singleton.1 hm]; exact List.mem_cons_self)))
        (fun h => hb (List.mem_cons_of_mem _ h)) (fun u m hm => hr u m (List.mem_cons_of_mem _ hm)) x hx
      rw [this, hos]
      rfl
  have h1 := main before s (hc t) (hs t) hb hr shown he
  have h2 := lastName_ok (t := t) (hs t) hr
  rw [h1]
  exact ⟨rfl, h2⟩

/-- **C58**, `setThreadName`: the name becomes the first 15 characters. -/
theorem C58_set_cut (s : Names) (t : Nat) (n : Text) (hn : '\x00' ∉ n) :
    (setThreadName s t n).os t = n.take 15 ∧ ((setThreadName s t n).os t).length ≤ 15 ∧ ∀ u, u ≠ t → (setThreadName s t n).os u = s.os u := by
  have h : (setThreadName s t n).os t = n.take 15 := by
    show upd s.os t (cstring (n.take 15)) t = _
    rw [upd_same]
    exact Render.takeWhile_noNul (fun h => hn (List.mem_of_mem_take h))
  refine ⟨h, by rw [h]; exact List.length_take_le 15 n, fun u hu => upd_other _ _ hu⟩

/-- a thread is renamed before and after its first event -/
example : (nameRun { os := fun _ => "main".toList, cache := fun _ => none }
    [.set 1 "a name of twenty chars".toList, .event 1, .rename 1 "other".toList, .event 1, .event 2]).2 =
    [(1, "a name of twent".toList), (1, "a name of twent".toList), (2, "main".toList)] := by decide +kernel

end Thread
end Soralog
