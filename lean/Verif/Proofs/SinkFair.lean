import Verif.Spec.Fair
import Verif.Proofs.SinkConcLive
/-! # Endless fair executions of a sink (atomic queue) -/
namespace Soralog
namespace SinkConc

theorem Does.exec {c : Cfg} {s s' : St} {d : Deed} (h : Does c s d s') : s' = s ∨ Exec c s s' := by
  cases d with
  | rest => exact .inl h
  | call t k =>
    obtain ⟨h1, h2, h3, h4⟩ := h
    rw [h4]
    right
    have := Exec.call (c := c) s t h1 h2 h3 k
    cases k <;> exact this
  | step t ch => rw [show s' = step c s t ch from h]; exact .inr (.step s t ch)
  | destroy t => obtain ⟨h1, h2, h3, h4⟩ := h; rw [h4]; exact .inr (.destroy s t h1 h2 h3)

theorem Endless.reach {c : Cfg} {o : Bool} {σ : Nat → Deed} {R : Nat → St} (h : Endless c o σ R) (n : Nat) : Reach c o (R n) := by
  induction n with
  | zero => exact h.start
  | succ n ih =>
    rcases (h.next n).exec with e | e
    · rw [e]; exact ih
    · exact .next ih e

theorem does_pc_same {c : Cfg} {s s' : St} {d : Deed} (h : Does c s d s') {t : Tid} (hw : s.pc t ≠ .idle) (hd : ∀ ch, d ≠ .step t ch) :
    s'.pc t = s.pc t := by
  cases d with
  | rest => rw [show s' = s from h]
  | call u k =>
    obtain ⟨h1, h2, h3, h4⟩ := h
    rw [h4]; show upd _ _ _ _ = _; rw [upd, if_neg (by intro e; subst e; exact hw h2)]
  | step u ch =>
    rw [show s' = step c s u ch from h]
    exact step_pc_other c s u ch t (by intro e; subst e; exact hd ch rfl)
  | destroy u =>
    obtain ⟨h1, h2, h3, h4⟩ := h
    rw [h4]; show upd _ _ _ _ = _; rw [upd, if_neg (by intro e; subst e; exact hw (h3 t h1))]

theorem Endless.first_deed {c : Cfg} {o : Bool} {σ : Nat → Deed} {R : Nat → St} (h : Endless c o σ R) {n : Nat} {t : Tid} (hr : Running ((R n).pc t)) :
    ∃ m ch, n ≤ m ∧ R (m + 1) = step c (R m) t ch ∧ (R m).pc t = (R n).pc t ∧ σ m = .step t ch := by
  obtain ⟨m, ch, hm, hs⟩ := h.fair n t hr
  have key : ∀ d n, Running ((R n).pc t) → σ (n + d) = .step t ch →
      ∃ m ch, n ≤ m ∧ R (m + 1) = step c (R m) t ch ∧ (R m).pc t = (R n).pc t ∧ σ m = .step t ch := by
    intro d
    induction d with
    | zero =>
      intro n _ hs
      have := h.next n
      rw [show σ n = .step t ch from hs] at this
      exact ⟨n, ch, Nat.le_refl _, this, rfl, hs⟩
    | succ d ih =>
      intro n hn hs
      by_cases e : ∃ ch, σ n = .step t ch
      · obtain ⟨ch, e⟩ := e
        have := h.next n
        rw [e] at this
        exact ⟨n, ch, Nat.le_refl _, this, rfl, e⟩
      · have h1 : (R (n + 1)).pc t = (R n).pc t := does_pc_same (h.next n) hn.1 (fun ch e' => e ⟨ch, e'⟩)
        obtain ⟨m, ch, h2, h3, h4, h5⟩ := ih (n + 1) (by rw [h1]; exact hn) (by rw [← hs]; congr 1; omega)
        exact ⟨m, ch, by omega, h3, h4.trans h1, h5⟩
  exact key (m - n) n hr (by rw [show n + (m - n) = m by omega]; exact hs)

theorem Endless.first {c : Cfg} {o : Bool} {σ : Nat → Deed} {R : Nat → St} (h : Endless c o σ R) {n : Nat} {t : Tid} (hr : Running ((R n).pc t)) :
    ∃ m ch, n ≤ m ∧ R (m + 1) = step c (R m) t ch ∧ (R m).pc t = (R n).pc t := by
  obtain ⟨m, ch, h1, h2, h3, _⟩ := h.first_deed hr
  exact ⟨m, ch, h1, h2, h3⟩

/-- steps of a call that touch neither the queue's ends nor the flag; how many are left at most -/
def PC.tail : PC → Nat
  | .count _ => 5
  | .release _ => 4
  | .decide => 3
  | .rotate => 3
  | .async => 2
  | _ => 0

theorem step_tail (c : Cfg) (s : St) (t : Tid) (ch : Ch) (h : 0 < (s.pc t).tail) :
    (step c s t ch).pc t = .idle ∨ (step c s t ch).pc t = .enter .done ∨
      (0 < ((step c s t ch).pc t).tail ∧ ((step c s t ch).pc t).tail < (s.pc t).tail) := by
  cases hp : s.pc t <;> simp [hp, PC.tail] at h <;>
    (unfold step; simp only [hp]; (repeat' split) <;> simp [setPc, upd, PC.tail])

/-- on whose behalf `flush` runs -/
def PC.ret? : PC → Option Ret
  | .get k | .uncount k _ | .unref k _ | .write k _ | .casFlush k | .sync k | .casRotate k | .reopen k
  | .leave k | .sCall k _ | .sUncount k _ | .sUnref k _ | .sClear k => some k
  | _ => none

theorem inBody_ret {p : PC} (h : p.inBody = true) : ∃ k, p.ret? = some k := by
  cases p <;> simp [PC.inBody] at h <;> exact ⟨_, rfl⟩

theorem ret_inBody {p : PC} {k : Ret} (h : p.ret? = some k) : p.inBody = true := by
  cases p <;> simp [PC.ret?] at h <;> rfl

theorem ret_taking (c : Cfg) (k : Ret) (e : Event) : (taking c k e).ret? = some k := by unfold taking; split <;> rfl
theorem ret_nothing (c : Cfg) (k : Ret) : (nothing c k).ret? = some k := by unfold nothing; split <;> rfl

/-- a thread in `flush` stays there until it clears the flag -/
theorem step_ret (c : Cfg) (s : St) (t : Tid) (ch : Ch) {k : Ret} (h : (s.pc t).ret? = some k) :
    ((step c s t ch).pc t).ret? = some k ∨ (s.pc t = .leave k ∧ (step c s t ch).pc t = afterFlush k ∧ (step c s t ch).flag = false) := by
  cases hp : s.pc t <;> simp [hp, PC.ret?] at h <;> subst h
  case leave => right; unfold step; simp only [hp]; simp [setPc, upd]
  case get =>
    left; unfold step; simp only [hp]; (repeat' split)
    · simp [setPc, upd, ret_nothing]
    · simp [setPc, upd, ret_taking]
    · rw [hp]; rfl
  case write k e =>
    left; cases e <;> (unfold step; simp only [hp]; (repeat' split) <;> simp [setPc, upd, PC.ret?])
  all_goals (left; unfold step; simp only [hp]; (repeat' split) <;> simp [setPc, upd, PC.ret?])

/-- steps left in `flush`, apart from the queue -/
def PC.left : PC → Nat
  | .uncount _ _ => 16
  | .unref _ _ => 15
  | .sCall _ _ => 12
  | .sUncount _ _ => 11
  | .sUnref _ _ => 10
  | .get _ => 9
  | .write _ _ => 8
  | .casFlush _ => 7
  | .sync _ => 6
  | .casRotate _ => 5
  | .reopen _ => 4
  | .sClear _ => 4
  | .leave _ => 3
  | _ => 0

theorem left_taking (c : Cfg) (k : Ret) (e : Event) : (taking c k e).left ≤ 16 := by unfold taking; split <;> simp [PC.left]
theorem left_nothing (c : Cfg) (k : Ret) : (nothing c k).left ≤ 8 := by unfold nothing; split <;> simp [PC.left]

/-- steps left in `flush` -/
def toGo (s : St) (t : Tid) : Nat := 10 * s.queued + (s.pc t).left

theorem step_toGo {c : Cfg} {s : St} (t : Tid) (ch : Ch) {k : Ret} (hr : ∀ n, n < s.put.length → s.phase n = .ready)
    (h : (s.pc t).ret? = some k) (hl : s.pc t ≠ .leave k) : toGo (step c s t ch) t < toGo s t := by
  cases hp : s.pc t <;> simp [hp, PC.ret?] at h <;> subst h
  case leave => exact absurd hp hl
  case get k =>
    unfold step; simp only [hp]
    split
    · have := left_nothing c k
      have hg : (PC.get k).left = 9 := rfl
      simp only [toGo, setPc, upd, St.queued, hp, if_true, hg]; omega
    · rename_i e he
      have hlt : s.taken < s.put.length := (List.getElem?_eq_some_iff.1 he).1
      have := left_taking c k e
      have hg : (PC.get k).left = 9 := rfl
      rw [if_pos (hr _ hlt)]
      simp only [toGo, setPc, upd, St.queued, hp, if_true, hg]; omega
  case write k e =>
    cases e <;> (unfold step; simp only [hp]; (repeat' split) <;> simp [toGo, setPc, upd, St.queued, hp, PC.left])
  all_goals (unfold step; simp only [hp]; (repeat' split) <;> simp [toGo, setPc, upd, St.queued, hp, PC.left])

/-- what anything does to the queue -/
theorem does_queue {c : Cfg} {s s' : St} {d : Deed} (h : Does c s d s') :
    (s'.put = s.put ∧ s.taken ≤ s'.taken) ∨ (s'.taken = s.taken ∧ s.owner = s'.owner ∧ ∃ t e n, s.pc t = .put e ∧ s'.pc t = .count n) := by
  cases d with
  | rest => rw [show s' = s from h]; exact .inl ⟨rfl, Nat.le_refl _⟩
  | call t k => obtain ⟨_, _, _, h4⟩ := h; rw [h4]; exact .inl ⟨rfl, Nat.le_refl _⟩
  | destroy t => obtain ⟨_, _, _, h4⟩ := h; rw [h4]; exact .inl ⟨rfl, Nat.le_refl _⟩
  | step t ch =>
    rw [show s' = step c s t ch from h]
    rcases step_queue c s t ch with ⟨h1, h2, _⟩ | ⟨e, hp, _, hs⟩ | ⟨n, hp, hs⟩ | ⟨n, hp, hs⟩ | ⟨k, e, hp, he, hr, hs⟩
    · exact .inl ⟨h1, by omega⟩
    · right; rw [hs]; exact ⟨rfl, rfl, t, e, _, hp, by simp [setPc, upd]; rfl⟩
    · left; rw [hs]; exact ⟨rfl, Nat.le_refl _⟩
    · left; rw [hs]; exact ⟨rfl, Nat.le_refl _⟩
    · left; rw [hs]; exact ⟨rfl, Nat.le_succ _⟩

theorem all_ready {c : Cfg} {o : Bool} {s : St} (h : Reach c o s) (hn : ∀ t, t ≠ workerTid → (s.pc t).tail = 0) :
    ∀ n, n < s.put.length → s.phase n = .ready := by
  intro n hl
  have hw := (roles_reach h).worker
  cases hp : s.phase n with
  | ready => rfl
  | made =>
    obtain ⟨t, ht⟩ := (conv_reach h).made n hl hp
    have := hn t (by intro e; subst e; rw [ht] at hw; cases hw)
    rw [ht] at this; cases this
  | counted =>
    obtain ⟨t, ht⟩ := (conv_reach h).counted n hl hp
    have := hn t (by intro e; subst e; rw [ht] at hw; cases hw)
    rw [ht] at this; cases this

/-- from `N` on nothing is put and everything in the queue is ready -/
structure QuietFrom (R : Nat → St) (N : Nat) : Prop where
  put : ∀ m, N ≤ m → (R (m + 1)).put = (R m).put
  ready : ∀ m, N ≤ m → ∀ n, n < (R m).put.length → (R m).phase n = .ready

theorem QuietFrom.mono {R : Nat → St} {N M : Nat} (h : QuietFrom R N) (hm : N ≤ M) : QuietFrom R M :=
  ⟨fun m h' => h.put m (by omega), fun m h' => h.ready m (by omega)⟩

theorem Endless.taken_mono {c : Cfg} {o : Bool} {σ : Nat → Deed} {R : Nat → St} (h : Endless c o σ R) (n d : Nat) :
    (R n).taken ≤ (R (n + d)).taken := by
  induction d with
  | zero => exact Nat.le_refl _
  | succ d ih =>
    refine Nat.le_trans ih ?_
    rcases does_queue (h.next (n + d)) with ⟨_, h2⟩ | ⟨h2, _⟩
    · exact h2
    · exact Nat.le_of_eq h2.symm

theorem QuietFrom.putEq {R : Nat → St} {N : Nat} (h : QuietFrom R N) {m m' : Nat} (h1 : N ≤ m) (h2 : m ≤ m') : (R m').put = (R m).put := by
  obtain ⟨d, rfl⟩ : ∃ d, m' = m + d := ⟨m' - m, by omega⟩
  clear h2
  induction d with
  | zero => rfl
  | succ d ih => exact (h.put (m + d) (by omega)).trans ih

/-- When nothing is put any more, a thread in `flush` leaves it. -/
theorem Endless.leaves {c : Cfg} {o : Bool} {σ : Nat → Deed} {R : Nat → St} (h : Endless c o σ R) {N : Nat} (hq : QuietFrom R N)
    {m : Nat} (hm : N ≤ m) {t : Tid} {k : Ret} (ht : ((R m).pc t).ret? = some k) :
    ∃ m', m ≤ m' ∧ (R m').pc t = .leave k ∧ (R (m' + 1)).pc t = afterFlush k ∧ (R (m' + 1)).flag = false := by
  have key : ∀ g m, N ≤ m → ((R m).pc t).ret? = some k → toGo (R m) t ≤ g →
      ∃ m', m ≤ m' ∧ (R m').pc t = .leave k ∧ (R (m' + 1)).pc t = afterFlush k ∧ (R (m' + 1)).flag = false := by
    intro g
    induction g with
    | zero =>
      intro m _ h1 h2
      exfalso
      unfold toGo at h2
      generalize (R m).pc t = p at h1 h2
      cases p <;> simp [PC.ret?, PC.left] at h1 h2
    | succ g ih =>
      intro m hm h1 h2
      obtain ⟨m', ch, h3, h4, h5⟩ := h.first (n := m) (t := t) (by
        generalize (R m).pc t = p at h1
        refine ⟨?_, ?_, ?_⟩ <;> (intro e; subst e; cases h1))
      rcases step_ret c (R m') t ch (k := k) (by rw [h5]; exact h1) with h6 | ⟨h6, h7, h8⟩
      · by_cases e : (R m').pc t = .leave k
        · refine ⟨m', h3, e, ?_⟩
          rw [h4]; unfold step; simp only [e]; simp [setPc, upd]
        · have h7 := step_toGo t ch (hq.ready m' (by omega)) (k := k) (c := c) (by rw [h5]; exact h1) e
          have h8 : toGo (R m') t ≤ toGo (R m) t := by
            unfold toGo St.queued
            rw [h5, hq.putEq hm h3]
            have := h.taken_mono m (m' - m)
            rw [show m + (m' - m) = m' by omega] at this
            omega
          obtain ⟨m2, h9, h10⟩ := ih (m' + 1) (by omega) (by rw [h4]; exact h6) (by rw [h4]; omega)
          exact ⟨m2, by omega, h10⟩
      · exact ⟨m', h3, h6, by rw [h4]; exact h7, by rw [h4]; exact h8⟩
  exact key _ m hm ht (Nat.le_refl _)

theorem settles {f : Nat → Nat} {N B : Nat} (hm : ∀ n d, f n ≤ f (n + d)) (hb : ∀ n, N ≤ n → f n ≤ B) :
    ∃ M, N ≤ M ∧ ∀ m, M ≤ m → f m = f M := by
  have key : ∀ g n, N ≤ n → B - f n ≤ g → ∃ M, N ≤ M ∧ ∀ m, M ≤ m → f m = f M := by
    intro g
    induction g with
    | zero =>
      intro n hn hg
      refine ⟨n, hn, fun m hm' => ?_⟩
      have h1 := hm n (m - n)
      rw [show n + (m - n) = m by omega] at h1
      have h2 := hb m (by omega)
      omega
    | succ g ih =>
      intro n hn hg
      by_cases e : ∀ m, n ≤ m → f m = f n
      · exact ⟨n, hn, e⟩
      · obtain ⟨m, hm'⟩ := Classical.not_forall.1 e
        have hnm : n ≤ m := Classical.byContradiction fun h => hm' fun h' => absurd h' h
        have hne : f m ≠ f n := fun h => hm' fun _ => h
        have h1 := hm n (m - n)
        rw [show n + (m - n) = m by omega] at h1
        have h2 := hb m (by omega)
        exact ih m (by omega) (by omega)
  exact key _ N (Nat.le_refl _) (Nat.le_refl _)

theorem does_flag {c : Cfg} {s s' : St} {d : Deed} (h : Does c s d s') (hf : s.flag = false) :
    s'.flag = false ∨ ∃ t k, s'.pc t = .get k := by
  cases d with
  | rest => rw [show s' = s from h]; exact .inl hf
  | call t k => obtain ⟨_, _, _, h4⟩ := h; rw [h4]; exact .inl hf
  | destroy t => obtain ⟨_, _, _, h4⟩ := h; rw [h4]; exact .inl hf
  | step t ch =>
    rw [show s' = step c s t ch from h]
    cases hp : s.pc t with
    | enter k => right; refine ⟨t, k, ?_⟩; unfold step; simp only [hp]; rw [hf]; simp [setPc, upd]
    | write k e => left; cases e <;> (unfold step; simp only [hp]; (repeat' split) <;> exact hf)
    | leave k => left; unfold step; simp only [hp]; rfl
    | _ => left; unfold step; simp only [hp] <;> (repeat' split) <;> exact hf

theorem does_held {c : Cfg} {s s' : St} {d : Deed} (h : Does c s d s') (hf : s.held = false) :
    s'.held = false ∨ s'.taken = s.taken + 1 := by
  cases d with
  | rest => rw [show s' = s from h]; exact .inl hf
  | call t k => obtain ⟨_, _, _, h4⟩ := h; rw [h4]; exact .inl hf
  | destroy t => obtain ⟨_, _, _, h4⟩ := h; rw [h4]; exact .inl hf
  | step t ch =>
    rw [show s' = step c s t ch from h]
    cases hp : s.pc t with
    | write k e => left; cases e <;> (unfold step; simp only [hp]; (repeat' split) <;> exact hf)
    | _ => unfold step; simp only [hp] <;> (repeat' split) <;> first | exact .inl hf | exact .inl rfl | exact .inr rfl

theorem does_owner {c : Cfg} {s s' : St} {d : Deed} (h : Does c s d s') :
    s'.owner = s.owner ∨ (s.owner = none ∧ ∀ u, u ≠ workerTid → s.pc u = .idle) := by
  cases d with
  | rest => rw [show s' = s from h]; exact .inl rfl
  | call t k => obtain ⟨_, _, _, h4⟩ := h; rw [h4]; exact .inl rfl
  | destroy t => obtain ⟨_, h2, h3, h4⟩ := h; exact .inr ⟨h2, h3⟩
  | step t ch => rw [show s' = step c s t ch from h]; exact .inl (step_owner c s t ch)

/-- the clients' part: as long as a call is pending, some call returns -/
theorem Endless.client_progress {c : Cfg} {o : Bool} {σ : Nat → Deed} {R : Nat → St} (h : Endless c o σ R) (hcap : 0 < c.capacity)
    {N : Nat} (ho : (R N).owner = none) {t : Tid} (htw : t ≠ workerTid) (ht : (R N).pc t ≠ .idle) :
    ∃ m u, N ≤ m ∧ u ≠ workerTid ∧ (R m).pc u ≠ .idle ∧ (R (m + 1)).pc u = .idle := by
  refine Classical.byContradiction fun hno => ?_
  have hno' : ∀ m u, N ≤ m → u ≠ workerTid → (R m).pc u ≠ .idle → (R (m + 1)).pc u ≠ .idle :=
    fun m u h1 h2 h3 h4 => hno ⟨m, u, h1, h2, h3, h4⟩
  have hstay : ∀ {m m' u}, N ≤ m → m ≤ m' → u ≠ workerTid → (R m).pc u ≠ .idle → (R m').pc u ≠ .idle := by
    intro m m' u h1 h2 h3 h4
    obtain ⟨d, rfl⟩ : ∃ d, m' = m + d := ⟨m' - m, by omega⟩
    clear h2
    induction d with
    | zero => exact h4
    | succ d ih => exact hno' (m + d) u (by omega) h3 ih
  have hpend : ∀ m, N ≤ m → (R m).pc t ≠ .idle := fun m hm => hstay (Nat.le_refl _) hm htw ht
  have hown : ∀ m, N ≤ m → (R m).owner = none := by
    intro m hm
    obtain ⟨d, rfl⟩ : ∃ d, m = N + d := ⟨m - N, by omega⟩
    clear hm
    induction d with
    | zero => exact ho
    | succ d ih =>
      rcases does_owner (h.next (N + d)) with h1 | ⟨_, h1⟩
      · exact h1.trans ih
      · exact absurd (h1 t htw) (hpend (N + d) (by omega))
  have hrole : ∀ m u, N ≤ m → u ≠ workerTid → ((R m).pc u).role = 0 := fun m u hm hu => (roles_reach (h.reach m)).clients (hown m hm) u hu
  have hrun : ∀ {m u}, N ≤ m → u ≠ workerTid → (R m).pc u ≠ .idle → Running ((R m).pc u) := by
    intro m u hm hu hne
    have := hrole m u hm hu
    refine ⟨hne, ?_, ?_⟩ <;> (intro e; rw [e] at this; cases this)
  -- after the queue has been served, a call goes on to a flush
  have htail : ∀ g m u, N ≤ m → u ≠ workerTid → 0 < ((R m).pc u).tail → ((R m).pc u).tail ≤ g →
      ∃ m', m ≤ m' ∧ (R m').pc u = .enter .done := by
    intro g
    induction g with
    | zero => intro m u _ _ h1 h2; omega
    | succ g ih =>
      intro m u hm hu h1 h2
      have hne : (R m).pc u ≠ .idle := by intro e; rw [e] at h1; simp [PC.tail] at h1
      obtain ⟨m', ch, h3, h4, h5⟩ := h.first (hrun hm hu hne)
      have h6 := step_tail c (R m') u ch (by rw [h5]; exact h1)
      rw [← h4, h5] at h6
      rcases h6 with h6 | h6 | ⟨h6, h7⟩
      · exact absurd h6 (hno' m' u (by omega) hu (by rw [h5]; exact hne))
      · exact ⟨m' + 1, by omega, h6⟩
      · obtain ⟨m2, h8, h9⟩ := ih (m' + 1) u (by omega) hu h6 (by omega)
        exact ⟨m2, by omega, h9⟩
  have henter : ∀ m u, N ≤ m → u ≠ workerTid → (R m).pc u = .enter .done → ∃ m', m ≤ m' ∧ (R m').flag = false ∧ (R (m' + 1)).pc u = .get .done := by
    intro m u hm hu he
    have hne : (R m).pc u ≠ .idle := by rw [he]; simp
    obtain ⟨m', ch, h3, h4, h5⟩ := h.first (hrun hm hu hne)
    rw [he] at h5
    cases hf : (R m').flag
    · refine ⟨m', h3, hf, ?_⟩
      rw [h4]; unfold step; simp only [h5]; rw [hf]; simp [setPc, upd]
    · exfalso
      refine hno' m' u (by omega) hu (by rw [h5]; simp) ?_
      rw [h4]; unfold step; simp only [h5]; rw [hf]; simp [setPc, upd, afterFlush]
  have hqueue : ∀ M, N ≤ M → (∀ m u, M ≤ m → u ≠ workerTid → ((R m).pc u).tail = 0) → QuietFrom R M := by
    intro M hM hno2
    refine ⟨fun m hm => ?_, fun m hm => all_ready (h.reach m) (fun u hu => hno2 m u hm hu)⟩
    rcases does_queue (h.next m) with ⟨h1, _⟩ | ⟨_, _, u, e, n, h1, h2⟩
    · exact h1
    · have hu : u ≠ workerTid := by
        intro e'; subst e'
        have := (roles_reach (h.reach m)).worker
        rw [h1] at this; cases this
      have := hno2 (m + 1) u (by omega) hu
      rw [h2] at this; cases this
  -- nobody is in a flush that ends a call
  have hbody : ∀ m u, N ≤ m → u ≠ workerTid → ((R m).pc u).ret? = some .done → False := by
    intro m u hm hu hk
    have hin : ∀ m', m ≤ m' → ((R m').pc u).ret? = some .done := by
      intro m' hm'
      obtain ⟨d, rfl⟩ : ∃ d, m' = m + d := ⟨m' - m, by omega⟩
      clear hm'
      induction d with
      | zero => exact hk
      | succ d ih =>
        have hne : (R (m + d)).pc u ≠ .idle := by intro e; rw [e] at ih; cases ih
        by_cases e : ∃ ch, σ (m + d) = .step u ch
        · obtain ⟨ch, e⟩ := e
          have h1 := h.next (m + d)
          rw [e] at h1
          have h1 : R (m + d + 1) = step c (R (m + d)) u ch := h1
          rcases step_ret c (R (m + d)) u ch ih with h2 | ⟨_, h2, _⟩
          · show ((R (m + d + 1)).pc u).ret? = _; rw [h1]; exact h2
          · exact absurd (by rw [h1]; exact h2) (hno' (m + d) u (by omega) hu hne)
        · have := does_pc_same (h.next (m + d)) hne (fun ch e' => e ⟨ch, e'⟩)
          show ((R (m + d + 1)).pc u).ret? = _; rw [this]; exact ih
    have hflag : ∀ m', m ≤ m' → (R m').flag = true := fun m' hm' => (excl_reach (h.reach m')).flag u (ret_inBody (hin m' hm'))
    have hq := hqueue m hm (fun m' v hm' hv => by
      refine Classical.byContradiction fun hne => ?_
      obtain ⟨m2, h1, h2⟩ := htail _ m' v (by omega) hv (by omega) (Nat.le_refl _)
      obtain ⟨m3, h3, h4, _⟩ := henter m2 v (by omega) hv h2
      rw [hflag m3 (by omega)] at h4; cases h4)
    obtain ⟨m', h1, h2, h3, _⟩ := h.leaves hq (Nat.le_refl _) hk
    exact hno' m' u (by omega) hu (by rw [h2]; simp) h3
  have hnoenter : ∀ m u, N ≤ m → u ≠ workerTid → (R m).pc u = .enter .done → False := by
    intro m u hm hu he
    obtain ⟨m', h1, _, h2⟩ := henter m u hm hu he
    exact hbody (m' + 1) u (by omega) hu (by rw [h2]; rfl)
  have hnotail : ∀ m u, N ≤ m → u ≠ workerTid → ((R m).pc u).tail = 0 := by
    intro m u hm hu
    refine Classical.byContradiction fun hne => ?_
    obtain ⟨m2, h1, h2⟩ := htail _ m u hm hu (by omega) (Nat.le_refl _)
    exact hnoenter m2 u (by omega) hu h2
  have hq := hqueue N (Nat.le_refl _) hnotail
  -- from M on nothing is taken either
  obtain ⟨M, hM, hset⟩ := settles (f := fun n => (R n).taken) (N := N) (B := (R N).put.length) h.taken_mono (fun n hn => by
    have := (tick_reach (h.reach n)).taken
    rw [hq.putEq (Nat.le_refl _) hn] at this; exact this)
  have hputM : ∀ m, M ≤ m → (R m).put = (R M).put := fun m hm => hq.putEq hM hm
  have hqd : ∀ m, M ≤ m → (R m).queued = (R M).queued := fun m hm => by
    unfold St.queued; rw [hputM m hm, hset m hm]
  have hget : ∀ m u k, M ≤ m → (R m).pc u = .get k → (R M).queued = 0 := by
    intro m u k hm hp
    refine Classical.byContradiction fun hne => ?_
    obtain ⟨m', ch, h3, h4, h5⟩ := h.first (n := m) (t := u) (by rw [hp]; exact ⟨by simp, by simp, by simp⟩)
    rw [hp] at h5
    have hlt : (R m').taken < (R m').put.length := by
      have := hqd m' (by omega)
      unfold St.queued at this hne; omega
    have hrd := hq.ready m' (by omega) _ hlt
    have h6 : (R (m' + 1)).taken = (R m').taken + 1 := by
      rw [h4]
      rw [get_step_some (ch := ch) h5 (List.getElem?_eq_getElem hlt) hrd]; rfl
    have h7 := hset (m' + 1) (by omega)
    have h8 := hset m' (by omega)
    omega
  have hflagfree : ∃ M2, M ≤ M2 ∧ (R M2).flag = false := by
    cases hf : (R M).flag
    · exact ⟨M, Nat.le_refl _, hf⟩
    · obtain ⟨u, hu⟩ := (excl_reach (h.reach M)).free hf
      obtain ⟨k, hk⟩ := inBody_ret hu
      obtain ⟨m', h1, _, _, h2⟩ := h.leaves hq hM hk
      exact ⟨m' + 1, by omega, h2⟩
  obtain ⟨M2, hM2, hf2⟩ := hflagfree
  by_cases hfull : (R M).queued = c.capacity
  · -- the queue stays full: nobody can be in a flush, so the flag is free and the pending call takes it
    have hf : ∀ d, (R (M2 + d)).flag = false := by
      intro d
      induction d with
      | zero => exact hf2
      | succ d ih =>
        rcases does_flag (h.next (M2 + d)) ih with h1 | ⟨u, k, h1⟩
        · exact h1
        · have := hget (M2 + d + 1) u k (by omega) h1; omega
    have hf' : ∀ m, M2 ≤ m → (R m).flag = false := fun m hm => by have := hf (m - M2); rwa [show M2 + (m - M2) = m by omega] at this
    have hent : ∀ m k, M2 ≤ m → (R m).pc t = .enter k → False := by
      intro m k hm hp
      obtain ⟨m', ch, h3, h4, h5⟩ := h.first (n := m) (t := t) (by rw [hp]; exact ⟨by simp, by simp, by simp⟩)
      rw [hp] at h5
      have : (R (m' + 1)).pc t = .get k := by
        rw [h4]; unfold step; simp only [h5]; rw [hf' m' (by omega)]; simp [setPc, upd]
      have := hget (m' + 1) t k (by omega) this
      omega
    have hp := hpend M2 (by omega)
    have hr := hrole M2 t (by omega) htw
    have h1 := hnotail M2 t (by omega) htw
    have h2 : ((R M2).pc t).inBody = false := by
      cases e : ((R M2).pc t).inBody
      · rfl
      · have := (excl_reach (h.reach M2)).flag t e; rw [hf2] at this; cases this
    have hcase : (∃ e, (R M2).pc t = .put e) ∨ ∃ k, (R M2).pc t = .enter k := by
      generalize (R M2).pc t = p at hp hr h1 h2
      cases p <;> simp [PC.role, PC.tail, PC.inBody] at hp hr h1 h2 <;> simp
    rcases hcase with ⟨e, hc⟩ | ⟨k, hc⟩
    · obtain ⟨m', ch, h3, h4, h5⟩ := h.first (n := M2) (t := t) (by rw [hc]; exact ⟨by simp, by simp, by simp⟩)
      rw [hc] at h5
      refine hent (m' + 1) (.retry e) (by omega) ?_
      rw [h4]; unfold step; simp only [h5]; rw [if_pos (by rw [hqd m' (by omega)]; exact hfull)]; simp [setPc, upd]
    · exact hent M2 k (Nat.le_refl _) hc
  · -- there is room, and sooner or later nobody holds the slot
    have hh : ∀ d, (R (M2 + d)).held = false := by
      intro d
      induction d with
      | zero => exact (held_reach (h.reach M2)).free hf2
      | succ d ih =>
        rcases does_held (h.next (M2 + d)) ih with h1 | h1
        · exact h1
        · have h2 := hset (M2 + d + 1) (by omega)
          have h3 := hset (M2 + d) (by omega)
          omega
    have hh' : ∀ m, M2 ≤ m → (R m).held = false := fun m hm => by have := hh (m - M2); rwa [show M2 + (m - M2) = m by omega] at this
    have hput : ∀ m e, M2 ≤ m → (R m).pc t = .put e → False := by
      intro m e hm hp
      obtain ⟨m', ch, h3, h4, h5⟩ := h.first (n := m) (t := t) (by rw [hp]; exact ⟨by simp, by simp, by simp⟩)
      rw [hp] at h5
      have h6 : (R (m' + 1)).pc t = .count (R m').put.length := by
        rw [h4]; unfold step; simp only [h5]
        rw [if_neg (by rw [hqd m' (by omega)]; exact hfull), hh' m' (by omega), if_neg (by simp)]; simp [setPc, upd]
      have := hnotail (m' + 1) t (by omega) htw
      rw [h6] at this; cases this
    have hbd : ∀ m k, M2 ≤ m → ((R m).pc t).ret? = some k → False := by
      intro m k hm hk
      have hr := hrole m t (by omega) htw
      obtain ⟨m', h1, h2, h3, _⟩ := h.leaves hq (by omega) hk
      cases k with
      | done => exact hbody m t (by omega) htw hk
      | retry e => exact hput (m' + 1) e (by omega) h3
      | worker => generalize (R m).pc t = p at hk hr; cases p <;> simp [PC.ret?] at hk <;> subst hk <;> cases hr
      | destroy => generalize (R m).pc t = p at hk hr; cases p <;> simp [PC.ret?] at hk <;> subst hk <;> cases hr
    have hent : ∀ m k, M2 ≤ m → (R m).pc t = .enter k → False := by
      intro m k hm hp
      have hr := hrole m t (by omega) htw
      obtain ⟨m', ch, h3, h4, h5⟩ := h.first (n := m) (t := t) (by rw [hp]; exact ⟨by simp, by simp, by simp⟩)
      rw [hp] at h5 hr
      cases hf : (R m').flag
      · refine hbd (m' + 1) k (by omega) ?_
        rw [h4]; unfold step; simp only [h5]; rw [hf]; simp [setPc, upd, PC.ret?]
      · have h6 : (R (m' + 1)).pc t = afterFlush k := by
          rw [h4]; unfold step; simp only [h5]; rw [hf]; simp [setPc, upd]
        cases k with
        | done => exact hnoenter m t (by omega) htw hp
        | retry e => exact hput (m' + 1) e (by omega) h6
        | worker => cases hr
        | destroy => cases hr
    have hp := hpend M2 (by omega)
    have hr := hrole M2 t (by omega) htw
    have h1 := hnotail M2 t (by omega) htw
    have hcase : (∃ e, (R M2).pc t = .put e) ∨ (∃ k, (R M2).pc t = .enter k) ∨ ((R M2).pc t).inBody = true := by
      generalize (R M2).pc t = p at hp hr h1
      cases p <;> simp [PC.role, PC.tail] at hp hr h1 <;> simp [PC.inBody]
    rcases hcase with ⟨e, hc⟩ | ⟨k, hc⟩ | hc
    · exact hput M2 e (Nat.le_refl _) hc
    · exact hent M2 k (Nat.le_refl _) hc
    · obtain ⟨k, hk⟩ := inBody_ret hc
      exact hbd M2 k (Nat.le_refl _) hk

/-! ### the destructor -/

/-- where the worker is in its loop when there are still elements in the queue -/
def PC.lap : PC → Nat
  | .uncount _ _ => 99
  | .unref _ _ => 98
  | .sCall _ _ => 97
  | .sUncount _ _ => 96
  | .sUnref _ _ => 95
  | .write _ _ => 90
  | .casFlush _ => 89
  | .sync _ => 88
  | .casRotate _ => 87
  | .reopen _ => 86
  | .sClear _ => 86
  | .leave _ => 85
  | .wCheck => 84
  | .wSize => 83
  | .wWait => 60
  | .enter _ => 59
  | .get _ => 58
  | _ => 0

/-- and when there are none -/
def PC.lastLap : PC → Nat
  | .uncount _ _ => 99
  | .unref _ _ => 98
  | .sCall _ _ => 97
  | .sUncount _ _ => 96
  | .sUnref _ _ => 95
  | .wWait => 93
  | .enter _ => 92
  | .get _ => 91
  | .write _ _ => 90
  | .casFlush _ => 89
  | .sync _ => 88
  | .casRotate _ => 87
  | .reopen _ => 86
  | .sClear _ => 86
  | .leave _ => 85
  | .wCheck => 84
  | .wSize => 83
  | _ => 0

/-- how long the worker still has to go -/
def laps (s : St) : Nat :=
  if s.queued = 0 then (s.pc workerTid).lastLap else 100 * s.queued + 100 + (s.pc workerTid).lap

theorem lap_taking (c : Cfg) (k : Ret) (e : Event) : (taking c k e).lap ≤ 99 := by unfold taking; split <;> simp [PC.lap]
theorem lastLap_taking (c : Cfg) (k : Ret) (e : Event) : (taking c k e).lastLap ≤ 99 := by unfold taking; split <;> simp [PC.lastLap]
theorem lastLap_nothing (c : Cfg) (k : Ret) : (nothing c k).lastLap ≤ 90 := by unfold nothing; split <;> simp [PC.lastLap]

theorem laps_same {s s' : St} (h1 : s'.put = s.put) (h2 : s'.taken = s.taken)
    (h3 : (s'.pc workerTid).lap < (s.pc workerTid).lap) (h4 : (s'.pc workerTid).lastLap < (s.pc workerTid).lastLap) : laps s' < laps s := by
  unfold laps St.queued; rw [h1, h2]
  split <;> omega

theorem step_laps {c : Cfg} {s : St} (ch : Ch) (hr : ∀ n, n < s.put.length → s.phase n = .ready) (ht : s.taken ≤ s.put.length)
    (hrole : (s.pc workerTid).role = 1) (hfin : s.needFinalize = true)
    (hflag : s.pc workerTid = .enter .worker → s.flag = false) (hx : s.pc workerTid ≠ .wExit)
    (hto : s.pc workerTid = .wWait → ch.timeout = true) (hnew : ch.newest = true) :
    laps (step c s workerTid ch) < laps s := by
  cases hp : s.pc workerTid with
  | wExit => exact absurd hp hx
  | get k =>
    unfold step; simp only [hp]
    split
    · rename_i he
      have hq : s.queued = 0 := by
        unfold St.queued; have := List.getElem?_eq_none_iff.1 he; omega
      have := lastLap_nothing c k
      have hg : (PC.get k).lastLap = 91 := rfl
      have hq' : (setPc s workerTid (nothing c k)).queued = 0 := hq
      unfold laps
      rw [if_pos hq', if_pos hq]
      simp only [setPc, upd, hp, if_true, hg]; omega
    · rename_i e he
      have hlt : s.taken < s.put.length := (List.getElem?_eq_some_iff.1 he).1
      have h1 := lap_taking c k e
      have h2 := lastLap_taking c k e
      have hg : (PC.get k).lap = 58 := rfl
      rw [if_pos (hr _ hlt)]
      unfold laps
      rw [if_neg (show ¬ s.queued = 0 by unfold St.queued; omega)]
      simp only [setPc, upd, St.queued, hp, if_true, hg]
      split <;> omega
  | wSize =>
    unfold step; simp only [hp]
    split
    · rename_i hq
      unfold laps
      have hq' : (setPc s workerTid .wExit).queued = 0 := hq
      rw [if_pos hq', if_pos hq]
      simp [setPc, upd, hp, PC.lastLap]
    · rename_i hq
      unfold laps
      have hq' : ¬ (setPc s workerTid .wWait).queued = 0 := hq
      rw [if_neg hq', if_neg hq]
      simp [setPc, upd, hp, PC.lap, St.queued]
  | enter k =>
    have hk : k = .worker := by rw [hp] at hrole; cases k <;> first | rfl | cases hrole
    subst hk
    refine laps_same ?_ ?_ ?_ ?_ <;> (unfold step; simp only [hp]; rw [hflag hp]; simp [setPc, upd, PC.lap, PC.lastLap])
  | leave k =>
    have hk : k = .worker := by rw [hp] at hrole; cases k <;> first | rfl | cases hrole
    subst hk
    refine laps_same ?_ ?_ ?_ ?_ <;> (unfold step; simp only [hp]; simp [setPc, upd, PC.lap, PC.lastLap, afterFlush])
  | wWait => refine laps_same ?_ ?_ ?_ ?_ <;> (unfold step; simp only [hp]; simp [hto hp, setPc, upd, PC.lap, PC.lastLap])
  | wCheck => refine laps_same ?_ ?_ ?_ ?_ <;> (unfold step; simp only [hp]; simp [hfin, hnew, setPc, upd, PC.lap, PC.lastLap])
  | sUnref k e =>
    refine laps_same ?_ ?_ ?_ ?_ <;> (unfold step; simp only [hp]; simp [setPc, upd, PC.lap, PC.lastLap])
  | write k e =>
    cases e <;> (refine laps_same ?_ ?_ ?_ ?_ <;> (unfold step; simp only [hp]; (repeat' split) <;> simp [setPc, upd, PC.lap, PC.lastLap]))
  | idle => rw [hp] at hrole; cases hrole
  | put e => rw [hp] at hrole; cases hrole
  | count n => rw [hp] at hrole; cases hrole
  | release n => rw [hp] at hrole; cases hrole
  | decide => rw [hp] at hrole; cases hrole
  | async => rw [hp] at hrole; cases hrole
  | rotate => rw [hp] at hrole; cases hrole
  | dStart => rw [hp] at hrole; cases hrole
  | dAsync => rw [hp] at hrole; cases hrole
  | dJoin => rw [hp] at hrole; cases hrole
  | dEnd => rw [hp] at hrole; cases hrole
  | dead => rw [hp] at hrole; cases hrole
  | _ => refine laps_same ?_ ?_ ?_ ?_ <;> (unfold step; simp only [hp]; (repeat' split) <;> simp [setPc, upd, PC.lap, PC.lastLap])

/-- The next step that moves the worker on. -/
theorem Endless.first_worker {c : Cfg} {o : Bool} {σ : Nat → Deed} {R : Nat → St} (h : Endless c o σ R)
    (hw : ∀ n, (R n).pc workerTid = .wWait → ∃ m, n ≤ m ∧ (R m).pc workerTid ≠ .wWait) {n : Nat} (hr : Running ((R n).pc workerTid)) :
    ∃ m ch, n ≤ m ∧ R (m + 1) = step c (R m) workerTid ch ∧ (R m).pc workerTid = (R n).pc workerTid ∧
      ((R m).pc workerTid = .wWait → ch.timeout = true) ∧ σ m = .step workerTid ch := by
  by_cases hp : (R n).pc workerTid = .wWait
  · obtain ⟨m1, h1, h2⟩ := hw n hp
    have key : ∀ d n, (R n).pc workerTid = .wWait → (R (n + d)).pc workerTid ≠ .wWait →
        ∃ m ch, n ≤ m ∧ R (m + 1) = step c (R m) workerTid ch ∧ (R m).pc workerTid = .wWait ∧ ch.timeout = true ∧ σ m = .step workerTid ch := by
      intro d
      induction d with
      | zero => intro n h1 h2; exact absurd h1 h2
      | succ d ih =>
        intro n h1 h2
        by_cases e : (R (n + 1)).pc workerTid = .wWait
        · obtain ⟨m, ch, h3, h4⟩ := ih (n + 1) e (by rw [show n + 1 + d = n + (d + 1) by omega]; exact h2)
          exact ⟨m, ch, by omega, h4⟩
        · by_cases e2 : ∃ ch, σ n = .step workerTid ch
          · obtain ⟨ch, e2⟩ := e2
            have hn := h.next n
            rw [e2] at hn
            have hn : R (n + 1) = step c (R n) workerTid ch := hn
            refine ⟨n, ch, Nat.le_refl _, hn, h1, ?_, e2⟩
            rw [hn] at e
            unfold step at e; simp only [h1] at e
            cases hc : ch.timeout
            · rw [hc, if_neg (by simp)] at e; exact absurd h1 e
            · rfl
          · exact absurd ((does_pc_same (h.next n) (by rw [h1]; simp) (fun ch e' => e2 ⟨ch, e'⟩)).trans h1) e
    obtain ⟨m, ch, h3, h4, h5, h6, h7⟩ := key (m1 - n) n hp (by rw [show n + (m1 - n) = m1 by omega]; exact h2)
    exact ⟨m, ch, h3, h4, h5.trans hp.symm, fun _ => h6, h7⟩
  · obtain ⟨m, ch, h3, h4, h5, h7⟩ := h.first_deed hr
    exact ⟨m, ch, h3, h4, h5, fun e => absurd (h5.symm.trans e) hp, h7⟩

/-- A started destructor finishes if the waits of the worker end. -/
theorem Endless.destructor_ends_from {c : Cfg} {o : Bool} {σ : Nat → Deed} {R : Nat → St} (h : Endless c o σ R)
    (hw : ∀ n, (R n).pc workerTid = .wWait → ∃ m, n ≤ m ∧ (R m).pc workerTid ≠ .wWait)
    {N : Nat} (hv : ∀ n, N ≤ n → ∀ t ch, σ n = .step t ch → ch.newest = true) {d : Tid} (ho : (R N).owner = some d) : ∃ m, N ≤ m ∧ (R m).pc d = .dead := by
  refine Classical.byContradiction fun hno => ?_
  have hno' : ∀ m, N ≤ m → (R m).pc d ≠ .dead := fun m hm e => hno ⟨m, hm, e⟩
  have hown : ∀ m, N ≤ m → (R m).owner = some d := by
    intro m hm
    obtain ⟨k, rfl⟩ : ∃ k, m = N + k := ⟨m - N, by omega⟩
    clear hm
    induction k with
    | zero => exact ho
    | succ k ih =>
      rcases does_owner (h.next (N + k)) with h1 | ⟨h1, _⟩
      · exact h1.trans ih
      · rw [ih] at h1; cases h1
  have hroles : ∀ m, N ≤ m → d ≠ workerTid ∧ ((R m).pc d).role = 2 ∧ ∀ u, u ≠ workerTid → u ≠ d → (R m).pc u = .idle :=
    fun m hm => (roles_reach (h.reach m)).owner d (hown m hm)
  have hrun : ∀ {m}, N ≤ m → Running ((R m).pc d) := fun {m} hm => by
    have := (hroles m hm).2.1
    refine ⟨?_, ?_, hno' m hm⟩ <;> (intro e; rw [e] at this; cases this)
  have htail : ∀ m u, N ≤ m → u ≠ workerTid → ((R m).pc u).tail = 0 := fun m u hm hu => by
    by_cases e : u = d
    · have := (hroles m hm).2.1
      subst e
      generalize (R m).pc u = p at this
      cases p <;> first | rfl | cases this
    · rw [(hroles m hm).2.2 u hu e]; rfl
  have hq : QuietFrom R N := by
    refine ⟨fun m hm => ?_, fun m hm => all_ready (h.reach m) (fun u hu => htail m u hm hu)⟩
    rcases does_queue (h.next m) with ⟨h1, _⟩ | ⟨_, _, u, e, n, h1, h2⟩
    · exact h1
    · have hu : u ≠ workerTid := by
        intro e'; subst e'
        have := (roles_reach (h.reach m)).worker
        rw [h1] at this; cases this
      have := htail (m + 1) u (by omega) hu
      rw [h2] at this; cases this
  have hdEnd : ∀ m, N ≤ m → (R m).pc d = .dEnd → False := by
    intro m hm hp
    obtain ⟨m', ch, h3, h4, h5⟩ := h.first (hrun hm)
    rw [hp] at h5
    refine hno' (m' + 1) (by omega) ?_
    rw [h4]; unfold step; simp only [h5]; split <;> simp [setPc, upd]
  have hbody : ∀ m k, N ≤ m → ((R m).pc d).ret? = some k → False := by
    intro m k hm hk
    have hr := (hroles m hm).2.1
    obtain ⟨m', h1, _, h2, _⟩ := h.leaves hq hm hk
    refine hdEnd (m' + 1) (by omega) (h2.trans ?_)
    generalize (R m).pc d = p at hk hr
    cases k <;> first | rfl | (cases p <;> simp [PC.ret?] at hk <;> subst hk <;> cases hr)
  have henter : ∀ m k, N ≤ m → c.latency0 = true → (R m).pc d = .enter k → False := by
    intro m k hm hl hp
    have hr := (hroles m hm).2.1
    obtain ⟨m', ch, h3, h4, h5⟩ := h.first (hrun hm)
    rw [hp] at h5
    have hf : (R m').flag = false := by
      cases e : (R m').flag
      · rfl
      · obtain ⟨u, hu⟩ := (excl_reach (h.reach m')).free e
        by_cases e1 : u = workerTid
        · subst e1; rw [(final_reach (h.reach m')).lat0 hl] at hu; cases hu
        · by_cases e2 : u = d
          · subst e2; rw [h5] at hu; cases hu
          · rw [(hroles m' (by omega)).2.2 u e1 e2] at hu; cases hu
    refine hbody (m' + 1) k (by omega) ?_
    rw [h4]; unfold step; simp only [h5]; rw [hf]; simp [setPc, upd, PC.ret?]
  -- the worker ends
  have hexit : ∀ m, N ≤ m → (R m).needFinalize = true → c.latency0 = false → ((R m).pc d).finishing →
      ∃ m', m ≤ m' ∧ (R m').pc workerTid = .wExit := by
    have key : ∀ g m, N ≤ m → (R m).needFinalize = true → c.latency0 = false → ((R m).pc d).finishing → laps (R m) ≤ g →
        ∃ m', m ≤ m' ∧ (R m').pc workerTid = .wExit := by
      intro g
      induction g with
      | zero =>
        intro m hm _ _ _ hl
        refine ⟨m, Nat.le_refl _, ?_⟩
        have hr := (roles_reach (h.reach m)).worker
        unfold laps at hl
        split at hl
        · generalize (R m).pc workerTid = p at hr hl
          cases p <;> simp [PC.lastLap] at hl <;> first | rfl | cases hr
        · omega
      | succ g ih =>
        intro m hm hfin hlat hfi hl
        by_cases hx : (R m).pc workerTid = .wExit
        · exact ⟨m, Nat.le_refl _, hx⟩
        · have hr := (roles_reach (h.reach m)).worker
          have hrn : Running ((R m).pc workerTid) := by
            refine ⟨?_, hx, ?_⟩ <;> (intro e; rw [e] at hr; cases hr)
          obtain ⟨m', ch, h3, h4, h5, hto, hsd⟩ := h.first_worker hw hrn
          have hkeep : ∀ k, (R (m + k)).needFinalize = true := by
            intro k
            induction k with
            | zero => exact hfin
            | succ k ihk =>
              have h1 := h.next (m + k)
              cases e : σ (m + k) with
              | step u ch => rw [e] at h1; rw [show R (m + (k + 1)) = _ from h1]; exact step_fin_mono c _ u ch ihk
              | call u cl => rw [e] at h1; obtain ⟨_, _, _, h2⟩ := h1; rw [show R (m + (k + 1)) = _ from h2]; exact ihk
              | destroy u => rw [e] at h1; obtain ⟨_, _, _, h2⟩ := h1; rw [show R (m + (k + 1)) = _ from h2]; exact ihk
              | rest => rw [e] at h1; rw [show R (m + (k + 1)) = _ from h1]; exact ihk
          have hfin' := hkeep (m' - m)
          rw [show m + (m' - m) = m' by omega] at hfin'
          have hdf : ((R m').pc d).finishing := by
            rcases (final_reach (h.reach m')).own d (hown m' (by omega)) hlat with h1 | ⟨_, h1⟩
            · exfalso
              -- the destructor does not go back
              have : ∀ k, ((R (m + k)).pc d).finishing := by
                intro k
                induction k with
                | zero => exact hfi
                | succ k ihk =>
                  by_cases e : ∃ ch, σ (m + k) = .step d ch
                  · obtain ⟨ch, e⟩ := e
                    have h1 := h.next (m + k)
                    rw [e] at h1
                    rw [show R (m + (k + 1)) = _ from h1]
                    exact step_finishing c _ d ch ihk
                  · have := does_pc_same (h.next (m + k)) (hrun (m := m + k) (by omega)).1 (fun ch e' => e ⟨ch, e'⟩)
                    show ((R (m + k + 1)).pc d).finishing
                    rw [this]; exact ihk
              have := this (m' - m)
              rw [show m + (m' - m) = m' by omega, h1] at this
              rcases this with e | e | e | e <;> cases e
            · exact h1
          have hlt := step_laps (c := c) (s := R m') ch (hq.ready m' (by omega)) (tick_reach (h.reach m')).taken
            (roles_reach (h.reach m')).worker hfin' (fun hp => by
              cases e : (R m').flag
              · rfl
              · obtain ⟨u, hu⟩ := (excl_reach (h.reach m')).free e
                by_cases e1 : u = workerTid
                · subst e1; rw [hp] at hu; cases hu
                · by_cases e2 : u = d
                  · subst e2; rcases hdf with e | e | e | e <;> rw [e] at hu <;> cases hu
                  · rw [(hroles m' (by omega)).2.2 u e1 e2] at hu; cases hu) (by rw [h5]; exact hx) hto (hv m' (by omega) _ _ hsd)
          have hle : laps (R m') ≤ laps (R m) := by
            unfold laps St.queued
            rw [h5, hq.putEq hm h3]
            have h7 := h.taken_mono m (m' - m)
            rw [show m + (m' - m) = m' by omega] at h7
            have h9 : ((R m).pc workerTid).lastLap ≤ 99 := by
              generalize (R m).pc workerTid = p; cases p <;> simp [PC.lastLap]
            split <;> split <;> omega
          obtain ⟨m2, h8, h9⟩ := ih (m' + 1) (by omega) (by rw [h4]; exact step_fin_mono c _ _ _ hfin') hlat
            (by rw [h4, step_pc_other c _ _ _ _ (hroles m' (by omega)).1]; exact hdf) (by rw [h4]; omega)
          exact ⟨m2, by omega, h9⟩
    exact fun m h1 h2 h3 h4 => key _ m h1 h2 h3 h4 (Nat.le_refl _)
  have hwx : ∀ {m m'}, m ≤ m' → (R m).pc workerTid = .wExit → (R m').pc workerTid = .wExit := by
    intro m m' hm hx
    obtain ⟨k, rfl⟩ : ∃ k, m' = m + k := ⟨m' - m, by omega⟩
    clear hm
    induction k with
    | zero => exact hx
    | succ k ih =>
      by_cases e : ∃ ch, σ (m + k) = .step workerTid ch
      · obtain ⟨ch, e⟩ := e
        have h1 := h.next (m + k)
        rw [e] at h1
        rw [show R (m + (k + 1)) = _ from h1, role_wExit_step c _ _ _ ih]; exact ih
      · have := does_pc_same (h.next (m + k)) (t := workerTid) (by rw [ih]; simp) (fun ch e' => e ⟨ch, e'⟩)
        exact this.trans ih
  have hjoin : ∀ m, N ≤ m → (R m).pc d = .dJoin → False := by
    intro m hm hp
    have hl : c.latency0 = true ∨ c.latency0 = false := by cases c.latency0 <;> simp
    have hx : ∃ m', m ≤ m' ∧ (R m').pc workerTid = .wExit := by
      rcases hl with hl | hl
      · exact ⟨m, Nat.le_refl _, (final_reach (h.reach m)).lat0 hl⟩
      · rcases (final_reach (h.reach m)).own d (hown m hm) hl with h1 | ⟨h1, h2⟩
        · rw [hp] at h1; cases h1
        · exact hexit m hm h1 hl h2
    obtain ⟨m', h1, h2⟩ := hx
    -- the destructor may have moved on already
    by_cases e : (R m').pc d = .dJoin
    · obtain ⟨m2, ch, h3, h4, h5⟩ := h.first (hrun (m := m') (by omega))
      rw [e] at h5
      refine hdEnd (m2 + 1) (by omega) ?_
      rw [h4]; unfold step; simp only [h5]; rw [if_pos (hwx h3 h2)]; simp [setPc, upd]
    · have : ∀ k, (R (m + k)).pc d = .dJoin ∨ ∃ m2, N ≤ m2 ∧ (R m2).pc d = .dEnd := by
        intro k
        induction k with
        | zero => exact .inl hp
        | succ k ih =>
          rcases ih with ih | ih
          · by_cases e : ∃ ch, σ (m + k) = .step d ch
            · obtain ⟨ch, e⟩ := e
              have h1 := h.next (m + k)
              rw [e] at h1
              have h1 : R (m + (k + 1)) = step c (R (m + k)) d ch := h1
              by_cases hw : (R (m + k)).pc workerTid = .wExit
              · right; refine ⟨m + (k + 1), by omega, ?_⟩
                rw [h1]; unfold step; simp only [ih]; rw [if_pos hw]; simp [setPc, upd]
              · left; rw [h1]; unfold step; simp only [ih]; rw [if_neg hw]; exact ih
            · left
              exact (does_pc_same (h.next (m + k)) (by rw [ih]; simp) (fun ch e' => e ⟨ch, e'⟩)).trans ih
          · exact .inr ih
      rcases this (m' - m) with h3 | ⟨m2, h3, h4⟩
      · rw [show m + (m' - m) = m' by omega] at h3; exact e h3
      · exact hdEnd m2 h3 h4
  have hasync : ∀ m, N ≤ m → (R m).pc d = .dAsync → False := by
    intro m hm hp
    obtain ⟨m', ch, h3, h4, h5⟩ := h.first (hrun hm)
    rw [hp] at h5
    refine hjoin (m' + 1) (by omega) ?_
    rw [h4]; unfold step; simp only [h5]; simp [setPc, upd]
  have hr := (hroles N (Nat.le_refl _)).2.1
  cases hp : (R N).pc d with
  | dStart =>
    obtain ⟨m', ch, h3, h4, h5⟩ := h.first (hrun (Nat.le_refl _))
    rw [hp] at h5
    cases hl : c.latency0
    · refine hasync (m' + 1) (by omega) ?_
      rw [h4]; unfold step; simp only [h5]; rw [hl]; simp [setPc, upd]
    · refine henter (m' + 1) .destroy (by omega) hl ?_
      rw [h4]; unfold step; simp only [h5]; rw [hl]; simp [setPc, upd]
  | dAsync => exact hasync N (Nat.le_refl _) hp
  | dJoin => exact hjoin N (Nat.le_refl _) hp
  | dEnd => exact hdEnd N (Nat.le_refl _) hp
  | dead => exact hno' N (Nat.le_refl _) hp
  | enter k =>
    cases hl : c.latency0
    · rcases (final_reach (h.reach N)).own d ho hl with h1 | ⟨_, h1⟩
      · rw [hp] at h1; cases h1
      · rw [hp] at h1; rcases h1 with e | e | e | e <;> cases e
    · exact henter N k (Nat.le_refl _) hl hp
  | idle => rw [hp] at hr; cases hr
  | put e => rw [hp] at hr; cases hr
  | count n => rw [hp] at hr; cases hr
  | release n => rw [hp] at hr; cases hr
  | decide => rw [hp] at hr; cases hr
  | async => rw [hp] at hr; cases hr
  | rotate => rw [hp] at hr; cases hr
  | wWait => rw [hp] at hr; cases hr
  | wCheck => rw [hp] at hr; cases hr
  | wSize => rw [hp] at hr; cases hr
  | wExit => rw [hp] at hr; cases hr
  | _ => exact hbody N _ (Nat.le_refl _) (by rw [hp]; rfl)

end SinkConc
end Soralog
