import Verif.Proofs.SinkFair
/-! # What has been accepted is written in the end (endless fair executions, atomic queue) -/
namespace Soralog
namespace SinkConc

theorem does_grows {c : Cfg} {s s' : St} {d : Deed} (h : Does c s d s') : s.put <+: s'.put := by
  cases d with
  | rest => rw [show s' = s from h]; exact List.prefix_refl _
  | call t k => obtain ⟨_, _, _, h4⟩ := h; rw [h4]; exact List.prefix_refl _
  | destroy t => obtain ⟨_, _, _, h4⟩ := h; rw [h4]; exact List.prefix_refl _
  | step t ch =>
    rw [show s' = step c s t ch from h]
    rcases step_queue c s t ch with ⟨h1, _⟩ | ⟨e, _, _, hs⟩ | ⟨n, _, hs⟩ | ⟨n, _, hs⟩ | ⟨k, e, _, _, _, hs⟩
    · rw [h1]; exact List.prefix_refl _
    · rw [hs]; exact List.prefix_append _ _
    · rw [hs]; exact List.prefix_refl _
    · rw [hs]; exact List.prefix_refl _
    · rw [hs]; exact List.prefix_refl _

theorem does_ready {c : Cfg} {o : Bool} {s s' : St} {d : Deed} (hr : Reach c o s) (h : Does c s d s') {n : Nat} (hn : s.phase n = .ready) :
    s'.phase n = .ready := by
  cases d with
  | rest => rw [show s' = s from h]; exact hn
  | call t k => obtain ⟨_, _, _, h4⟩ := h; rw [h4]; exact hn
  | destroy t => obtain ⟨_, _, _, h4⟩ := h; rw [h4]; exact hn
  | step t ch =>
    rw [show s' = step c s t ch from h]
    rcases step_queue c s t ch with ⟨_, _, h1, _⟩ | ⟨e, _, _, hs⟩ | ⟨m, hp, hs⟩ | ⟨m, hp, hs⟩ | ⟨k, e, _, _, _, hs⟩
    · rw [h1]; exact hn
    · rw [hs]; exact hn
    · rw [hs]; show upd _ _ _ _ = _
      have := ((tick_reach hr).count t m hp).2.2
      rw [upd, if_neg (fun e => by subst e; rw [hn] at this; cases this)]; exact hn
    · rw [hs]; show upd _ _ _ _ = _
      rw [upd]; split
      · rfl
      · exact hn
    · rw [hs]; exact hn

theorem Endless.put_mono {c : Cfg} {o : Bool} {σ : Nat → Deed} {R : Nat → St} (h : Endless c o σ R) {n m : Nat} (hm : n ≤ m) :
    (R n).put <+: (R m).put := by
  obtain ⟨d, rfl⟩ : ∃ d, m = n + d := ⟨m - n, by omega⟩
  clear hm
  induction d with
  | zero => exact List.prefix_refl _
  | succ d ih => exact ih.trans (does_grows (h.next (n + d)))

theorem Endless.ready_stays {c : Cfg} {o : Bool} {σ : Nat → Deed} {R : Nat → St} (h : Endless c o σ R) {n m i : Nat} (hm : n ≤ m)
    (hi : (R n).phase i = .ready) : (R m).phase i = .ready := by
  obtain ⟨d, rfl⟩ : ∃ d, m = n + d := ⟨m - n, by omega⟩
  clear hm
  induction d with
  | zero => exact hi
  | succ d ih => exact does_ready (h.reach _) (h.next (n + d)) ih

/-- whatever has been put becomes ready -/
theorem Endless.gets_ready {c : Cfg} {o : Bool} {σ : Nat → Deed} {R : Nat → St} (h : Endless c o σ R) {n i : Nat} (hi : i < (R n).put.length) :
    ∃ m, n ≤ m ∧ (R m).phase i = .ready := by
  have h2 : ∀ n, i < (R n).put.length → (R n).phase i = .counted → ∃ m, n ≤ m ∧ (R m).phase i = .ready := by
    intro n hi hp
    obtain ⟨t, ht⟩ := (conv_reach (h.reach n)).counted i hi hp
    obtain ⟨m, ch, h1, h2, h3⟩ := h.first (n := n) (t := t) (by rw [ht]; exact ⟨by simp, by simp, by simp⟩)
    refine ⟨m + 1, by omega, ?_⟩
    rw [ht] at h3
    rw [h2]; unfold step; simp only [h3]; simp [setPc, upd]
  cases hp : (R n).phase i with
  | ready => exact ⟨n, Nat.le_refl _, hp⟩
  | counted => exact h2 n hi hp
  | made =>
    obtain ⟨t, ht⟩ := (conv_reach (h.reach n)).made i hi hp
    obtain ⟨m, ch, h1, h2', h3⟩ := h.first (n := n) (t := t) (by rw [ht]; exact ⟨by simp, by simp, by simp⟩)
    rw [ht] at h3
    have hlen : i < (R (m + 1)).put.length := Nat.lt_of_lt_of_le hi (h.put_mono (n := n) (m := m + 1) (by omega)).length_le
    obtain ⟨m', h4, h5⟩ := h2 (m + 1) hlen (by rw [h2']; unfold step; simp only [h3]; simp [setPc, upd])
    exact ⟨m', by omega, h5⟩

/-- steps in `flush` other than those of the queue -/
theorem step_left {c : Cfg} {s : St} (t : Tid) (ch : Ch) {k : Ret} (h : (s.pc t).ret? = some k) (hl : s.pc t ≠ .leave k) (hg : s.pc t ≠ .get k) :
    ((step c s t ch).pc t).left < (s.pc t).left := by
  cases hp : s.pc t <;> simp [hp, PC.ret?] at h <;> subst h
  case leave => exact absurd hp hl
  case get => exact absurd hp hg
  case write k e => cases e <;> (unfold step; simp only [hp]; (repeat' split) <;> simp [setPc, upd, PC.left])
  all_goals (unfold step; simp only [hp]; (repeat' split) <;> simp [setPc, upd, PC.left])

/-- If nobody asks the queue any more, whoever is in `flush` leaves it. -/
theorem Endless.leaves_body {c : Cfg} {o : Bool} {σ : Nat → Deed} {R : Nat → St} (h : Endless c o σ R) {N : Nat}
    (hno : ∀ m t k, N ≤ m → (R m).pc t ≠ .get k) {m : Nat} (hm : N ≤ m) {t : Tid} {k : Ret} (ht : ((R m).pc t).ret? = some k) :
    ∃ m', m ≤ m' ∧ (R (m' + 1)).pc t = afterFlush k ∧ (R (m' + 1)).flag = false := by
  have key : ∀ g m, N ≤ m → ((R m).pc t).ret? = some k → ((R m).pc t).left ≤ g →
      ∃ m', m ≤ m' ∧ (R (m' + 1)).pc t = afterFlush k ∧ (R (m' + 1)).flag = false := by
    intro g
    induction g with
    | zero =>
      intro m _ h1 h2
      exfalso
      generalize (R m).pc t = p at h1 h2
      cases p <;> simp [PC.ret?, PC.left] at h1 h2
    | succ g ih =>
      intro m hm h1 h2
      obtain ⟨m', ch, h3, h4, h5⟩ := h.first (n := m) (t := t) (by
        generalize (R m).pc t = p at h1
        refine ⟨?_, ?_, ?_⟩ <;> (intro e; subst e; cases h1))
      rcases step_ret c (R m') t ch (k := k) (by rw [h5]; exact h1) with h6 | ⟨h6, h7, h8⟩
      · by_cases e : (R m').pc t = .leave k
        · refine ⟨m', h3, ?_⟩
          rw [h4]; unfold step; simp only [e]; simp [setPc, upd]
        · have h7 := step_left t ch (k := k) (c := c) (s := R m') (by rw [h5]; exact h1) e (hno m' t k (by omega))
          obtain ⟨m2, h9, h10⟩ := ih (m' + 1) (by omega) (by rw [h4]; exact h6) (by rw [h4]; rw [h5] at h7; omega)
          exact ⟨m2, by omega, h10⟩
      · exact ⟨m', h3, by rw [h4]; exact h7, by rw [h4]; exact h8⟩
  exact key _ m hm ht (Nat.le_refl _)

/-- Nothing is taken from `N` on although the queue is not empty: then from some moment on nobody is inside `flush`. -/
theorem Endless.stuck {c : Cfg} {o : Bool} {σ : Nat → Deed} {R : Nat → St} (h : Endless c o σ R) {N : Nat}
    (hq : (R N).taken < (R N).put.length) (hs : ∀ m, N ≤ m → (R m).taken = (R N).taken) :
    ∃ M, N ≤ M ∧ ∀ m, M ≤ m → (R m).flag = false ∧ ∀ t k, (R m).pc t ≠ .get k := by
  obtain ⟨M, hM, hrdy⟩ := h.gets_ready hq
  have hno : ∀ m t k, M ≤ m → (R m).pc t ≠ .get k := by
    intro m t k hm hp
    obtain ⟨m', ch, h3, h4, h5⟩ := h.first (n := m) (t := t) (by rw [hp]; exact ⟨by simp, by simp, by simp⟩)
    rw [hp] at h5
    have ht := hs m' (by omega)
    have hlen : (R N).taken < (R m').put.length := Nat.lt_of_lt_of_le hq (h.put_mono (n := N) (m := m') (by omega)).length_le
    have : (R (m' + 1)).taken = (R m').taken + 1 := by
      rw [h4]; unfold step; simp only [h5]
      rw [ht, List.getElem?_eq_getElem hlen]; dsimp only
      rw [if_pos (h.ready_stays (by omega) hrdy)]; rfl
    have := hs (m' + 1) (by omega)
    omega
  have hout : ∃ M', M ≤ M' ∧ (R M').flag = false := by
    cases hf : (R M).flag
    · exact ⟨M, Nat.le_refl _, hf⟩
    · obtain ⟨t, ht⟩ := (excl_reach (h.reach M)).free hf
      obtain ⟨k, hk⟩ := inBody_ret ht
      obtain ⟨m', h1, _, h2⟩ := h.leaves_body hno (Nat.le_refl _) hk
      exact ⟨m' + 1, by omega, h2⟩
  obtain ⟨M', hM', hf⟩ := hout
  refine ⟨M', by omega, ?_⟩
  have key : ∀ d, (R (M' + d)).flag = false := by
    intro d
    induction d with
    | zero => exact hf
    | succ d ih =>
      rcases does_flag (h.next (M' + d)) ih with h1 | ⟨t, k, h1⟩
      · exact h1
      · exact absurd h1 (hno (M' + d + 1) t k (by omega))
  intro m hm
  refine ⟨?_, fun t k => hno m t k (by omega)⟩
  have := key (m - M')
  rwa [show M' + (m - M') = m by omega] at this

/-- If `flush` is entered again and again while the queue is not empty, something is taken from it. -/
theorem Endless.takes {c : Cfg} {o : Bool} {σ : Nat → Deed} {R : Nat → St} (h : Endless c o σ R) {N : Nat}
    (hq : (R N).taken < (R N).put.length)
    (hent : (∀ m, N ≤ m → (R m).taken = (R N).taken) → ∀ M, N ≤ M → (∀ m, M ≤ m → (R m).flag = false ∧ ∀ t k, (R m).pc t ≠ .get k) →
      ∃ m t k, M ≤ m ∧ (R m).pc t = .enter k) : ∃ m, N ≤ m ∧ (R N).taken < (R m).taken := by
  refine Classical.byContradiction fun hne => ?_
  have hs : ∀ m, N ≤ m → (R m).taken = (R N).taken := by
    intro m hm
    have h1 := h.taken_mono N (m - N)
    rw [show N + (m - N) = m by omega] at h1
    have : ¬ (R N).taken < (R m).taken := fun e => hne ⟨m, hm, e⟩
    omega
  obtain ⟨M, hM, hfree⟩ := h.stuck hq hs
  obtain ⟨m, t, k, hm, he⟩ := hent hs M hM hfree
  obtain ⟨m', ch, h3, h4, h5⟩ := h.first (n := m) (t := t) (by rw [he]; exact ⟨by simp, by simp, by simp⟩)
  rw [he] at h5
  refine (hfree (m' + 1) (by omega)).2 t k ?_
  rw [h4]; unfold step; simp only [h5]; rw [(hfree m' (by omega)).1]; simp [setPc, upd]

/-- what has been taken is handed to the stream -/
theorem Endless.hands_over {c : Cfg} {σ : Nat → Deed} {R : Nat → St} (h : Endless c true σ R) {n i : Nat} (hi : i < (R n).taken) :
    ∃ m, n ≤ m ∧ i < (R m).written.length := by
  have hlen : ∀ m, ((R m).put.take (R m).taken).length = (R m).taken := fun m => by
    rw [List.length_take]; have := (tick_reach (h.reach m)).taken; omega
  have hfree : ∀ m, i < (R m).taken → (∀ t, ((R m).pc t).flight = []) → i < (R m).written.length := by
    intro m hi' hfl
    have hF := flow_reach (h.reach m)
    cases hf : (R m).flag
    · rw [← hF.free hf, hlen]; exact hi'
    · obtain ⟨t, ht⟩ := (excl_reach (h.reach m)).free hf
      have := hF.body t ht
      rw [hfl t, List.append_nil] at this
      rw [← this, hlen]; exact hi'
  -- the thread that holds it goes on until it has written it
  have key : ∀ g m t, i < (R m).taken → ((R m).pc t).flight ≠ [] → ((R m).pc t).left ≤ g → ∃ m', m ≤ m' ∧ i < (R m').written.length := by
    intro g
    induction g with
    | zero =>
      intro m t _ h1 h2
      exfalso
      generalize (R m).pc t = p at h1 h2
      cases p <;> simp [PC.flight, PC.left] at h1 h2
    | succ g ih =>
      intro m t hi' h1 h2
      have hrun : Running ((R m).pc t) := by
        generalize (R m).pc t = p at h1
        refine ⟨?_, ?_, ?_⟩ <;> (intro e; subst e; exact h1 rfl)
      obtain ⟨m', ch, h3, h4, h5⟩ := h.first hrun
      have hi2 : i < (R (m' + 1)).taken := by
        have := h.taken_mono m (m' + 1 - m)
        rw [show m + (m' + 1 - m) = m' + 1 by omega] at this
        omega
      by_cases hfl : ((R (m' + 1)).pc t).flight = []
      · refine ⟨m' + 1, by omega, hfree (m' + 1) hi2 ?_⟩
        intro u
        refine Classical.byContradiction fun hu => ?_
        have hb : ∀ {p : PC}, p.flight ≠ [] → p.inBody = true := by
          intro p hp; cases p <;> first | rfl | exact absurd rfl hp
        have hx := excl_reach (h.reach m')
        by_cases e : u = t
        · rw [e] at hu; exact hu hfl
        · have h6 : (R m').pc u = (R (m' + 1)).pc u := by rw [h4, step_pc_other c (R m') t ch u e]
          exact e (hx.uniq u t (hb (by rw [h6]; exact hu)) (hb (by rw [h5]; exact h1)))
      · obtain ⟨m2, h9, h10⟩ := ih (m' + 1) t hi2 hfl (by
          have : ((R (m' + 1)).pc t).left < ((R m').pc t).left := by
            rw [h4]
            have hk : ∃ k, ((R m').pc t).ret? = some k ∧ (R m').pc t ≠ .leave k ∧ (R m').pc t ≠ .get k := by
              rw [h5]
              generalize (R m).pc t = p at h1
              cases p <;> first | exact absurd rfl h1 | exact ⟨_, rfl, by simp, by simp⟩
            obtain ⟨k, k1, k2, k3⟩ := hk
            exact step_left t ch k1 k2 k3
          rw [h5] at this; omega)
        exact ⟨m2, by omega, h10⟩
  by_cases hall : ∀ t, ((R n).pc t).flight = []
  · exact ⟨n, Nat.le_refl _, hfree n hi hall⟩
  · obtain ⟨t, ht⟩ := Classical.not_forall.1 hall
    exact key _ n t hi ht (Nat.le_refl _)

/-- as long as something is queued, `flush` is entered again -/
def Visited (R : Nat → St) : Prop :=
  ∀ N, (R N).taken < (R N).put.length → (∀ m, N ≤ m → (R m).taken = (R N).taken) → ∀ M, N ≤ M →
    (∀ m, M ≤ m → (R m).flag = false ∧ ∀ t k, (R m).pc t ≠ .get k) → ∃ m t k, M ≤ m ∧ (R m).pc t = .enter k

theorem Endless.delivers {c : Cfg} {σ : Nat → Deed} {R : Nat → St} (h : Endless c true σ R) (hv : Visited R) {n : Nat} :
    ∃ m, n ≤ m ∧ (R n).put <+: (R m).written := by
  have htake : ∀ g n i, i < (R n).put.length → i + 1 - (R n).taken ≤ g → ∃ m, n ≤ m ∧ i < (R m).taken := by
    intro g
    induction g with
    | zero => intro n i hi hg; exact ⟨n, Nat.le_refl _, by omega⟩
    | succ g ih =>
      intro n i hi hg
      by_cases e : i < (R n).taken
      · exact ⟨n, Nat.le_refl _, e⟩
      · obtain ⟨m, h1, h2⟩ := h.takes (N := n) (by omega) (hv n (by omega))
        have := (h.put_mono h1).length_le
        obtain ⟨m', h3, h4⟩ := ih m i (by omega) (by omega)
        exact ⟨m', by omega, h4⟩
  have hpre : ∀ m, n ≤ m → (R n).put.length ≤ (R m).written.length → (R n).put <+: (R m).written := by
    intro m hm hl
    have h1 := h.put_mono hm
    have h2 : (R m).written <+: (R m).put := by
      have hF := flow_reach (h.reach m)
      have h3 : (R m).written <+: (R m).put.take (R m).taken := by
        cases hf : (R m).flag
        · rw [hF.free hf]; exact List.prefix_refl _
        · obtain ⟨t, ht⟩ := (excl_reach (h.reach m)).free hf
          rw [hF.body t ht]; exact List.prefix_append _ _
      exact h3.trans (List.take_prefix _ _)
    exact List.prefix_of_prefix_length_le h1 h2 hl
  by_cases h0 : (R n).put.length = 0
  · exact ⟨n, Nat.le_refl _, hpre n (Nat.le_refl _) (by omega)⟩
  · obtain ⟨m, h1, h2⟩ := htake _ n ((R n).put.length - 1) (by omega) (Nat.le_refl _)
    obtain ⟨m', h3, h4⟩ := h.hands_over h2
    exact ⟨m', by omega, hpre m' (by omega) (by omega)⟩

/-- with a worker whose waits end -/
theorem Endless.worker_visits {c : Cfg} {σ : Nat → Deed} {R : Nat → St} (h : Endless c true σ R) (hl : c.latency0 = false)
    (hw : ∀ n, (R n).pc workerTid = .wWait → ∃ m, n ≤ m ∧ (R m).pc workerTid ≠ .wWait) : Visited R := by
  intro N hq hs M hM hfree
  have hne : ∀ m, N ≤ m → (R m).taken < (R m).put.length := fun m hm => by
    rw [hs m hm]; exact Nat.lt_of_lt_of_le hq (h.put_mono hm).length_le
  have hwait : ∀ m, M ≤ m → (R m).pc workerTid = .wWait → ∃ m' t k, m ≤ m' ∧ (R m').pc t = .enter k := by
    intro m hm hp
    obtain ⟨m1, h1, h2⟩ := hw m hp
    have key : ∀ d n, (R n).pc workerTid = .wWait → (R (n + d)).pc workerTid ≠ .wWait → ∃ m' t k, n ≤ m' ∧ (R m').pc t = .enter k := by
      intro d
      induction d with
      | zero => intro n h1 h2; exact absurd h1 h2
      | succ d ih =>
        intro n h1 h2
        by_cases e : (R (n + 1)).pc workerTid = .wWait
        · obtain ⟨m', t, k, h3, h4⟩ := ih (n + 1) e (by rw [show n + 1 + d = n + (d + 1) by omega]; exact h2)
          exact ⟨m', t, k, by omega, h4⟩
        · by_cases e2 : ∃ ch, σ n = .step workerTid ch
          · obtain ⟨ch, e2⟩ := e2
            have hn := h.next n
            rw [e2] at hn
            refine ⟨n + 1, workerTid, .worker, by omega, ?_⟩
            rw [show R (n + 1) = step c (R n) workerTid ch from hn] at e ⊢
            unfold step at e ⊢; simp only [h1] at e ⊢
            split
            · simp [setPc, upd]
            · rename_i h5; rw [if_neg h5] at e; exact absurd h1 e
          · exact absurd ((does_pc_same (h.next n) (by rw [h1]; simp) (fun ch e' => e2 ⟨ch, e'⟩)).trans h1) e
    exact key (m1 - m) m hp (by rw [show m + (m1 - m) = m1 by omega]; exact h2)
  have hsize : ∀ m, M ≤ m → (R m).pc workerTid = .wSize → ∃ m' t k, m ≤ m' ∧ (R m').pc t = .enter k := by
    intro m hm hp
    obtain ⟨m', ch, h3, h4, h5⟩ := h.first (n := m) (t := workerTid) (by rw [hp]; exact ⟨by simp, by simp, by simp⟩)
    rw [hp] at h5
    have h6 : (R (m' + 1)).pc workerTid = .wWait := by
      have := hne m' (by omega)
      rw [h4]; unfold step; simp only [h5]
      rw [if_neg (by unfold St.queued; omega)]; simp [setPc, upd]
    obtain ⟨m2, t, k, h7, h8⟩ := hwait (m' + 1) (by omega) h6
    exact ⟨m2, t, k, by omega, h8⟩
  have hcheck : ∀ m, M ≤ m → (R m).pc workerTid = .wCheck → ∃ m' t k, m ≤ m' ∧ (R m').pc t = .enter k := by
    intro m hm hp
    obtain ⟨m', ch, h3, h4, h5⟩ := h.first (n := m) (t := workerTid) (by rw [hp]; exact ⟨by simp, by simp, by simp⟩)
    rw [hp] at h5
    have h6 : (R (m' + 1)).pc workerTid = .wWait ∨ (R (m' + 1)).pc workerTid = .wSize := by
      rw [h4]; unfold step; simp only [h5]; split <;> simp [setPc, upd]
    rcases h6 with h6 | h6
    · obtain ⟨m2, t, k, h7, h8⟩ := hwait (m' + 1) (by omega) h6
      exact ⟨m2, t, k, by omega, h8⟩
    · obtain ⟨m2, t, k, h7, h8⟩ := hsize (m' + 1) (by omega) h6
      exact ⟨m2, t, k, by omega, h8⟩
  have hrole := (roles_reach (h.reach M)).worker
  have hbody : ((R M).pc workerTid).inBody = false := by
    cases e : ((R M).pc workerTid).inBody
    · rfl
    · have := (excl_reach (h.reach M)).flag _ e
      rw [(hfree M (Nat.le_refl _)).1] at this; cases this
  cases hp : (R M).pc workerTid with
  | wWait => exact hwait M (Nat.le_refl _) hp
  | wCheck => exact hcheck M (Nat.le_refl _) hp
  | wSize => exact hsize M (Nat.le_refl _) hp
  | enter k => exact ⟨M, workerTid, k, Nat.le_refl _, hp⟩
  | wExit =>
    rcases (final_reach (h.reach M)).exit hp with e | e | ⟨_, e⟩
    · rw [hl] at e; cases e
    · cases e
    · have := hne M hM; omega
  | _ => rw [hp] at hrole hbody; first | (cases hbody; done) | (cases hrole; done) | cases hrole

/-- with zero latency, when the sink is used again and again -/
theorem Endless.calls_visit {c : Cfg} {o : Bool} {σ : Nat → Deed} {R : Nat → St} (h : Endless c o σ R) (hl : c.latency0 = true)
    (hcall : ∀ n, ∃ m t, n ≤ m ∧ ((∃ e, (R m).pc t = .put e) ∨ (R m).pc t = .enter .done ∨ (R m).pc t = .async)) : Visited R := by
  intro N hq hs M hM hfree
  obtain ⟨m, t, hm, hp⟩ := hcall M
  have htail : ∀ g m, M ≤ m → 0 < ((R m).pc t).tail → (R m).pc t ≠ .rotate → ((R m).pc t).tail ≤ g → ∃ m' t k, m ≤ m' ∧ (R m').pc t = .enter k := by
    intro g
    induction g with
    | zero => intro m _ h1 _ h2; omega
    | succ g ih =>
      intro m hm h1 hr h2
      obtain ⟨m', ch, h3, h4, h5⟩ := h.first (n := m) (t := t) (by
        generalize (R m).pc t = p at h1
        refine ⟨?_, ?_, ?_⟩ <;> (intro e; subst e; simp [PC.tail] at h1))
      have h6 : (∃ k, (R (m' + 1)).pc t = .enter k) ∨ ((R (m' + 1)).pc t ≠ .rotate ∧ 0 < ((R (m' + 1)).pc t).tail ∧ ((R (m' + 1)).pc t).tail ≤ g) := by
        rw [h4]
        generalize hp' : (R m).pc t = p at h1 h2 h5 hr
        cases p <;> simp [PC.tail] at h1 h2 hr
        · right; unfold step; simp only [h5]; simp [setPc, upd, PC.tail]; omega
        · right; unfold step; simp only [h5]; simp [setPc, upd, PC.tail]; omega
        · left; unfold step; simp only [h5]; rw [if_pos hl]; simp [setPc, upd]
        · left; unfold step; simp only [h5]; rw [if_pos hl]; simp [setPc, upd]
      rcases h6 with ⟨k, h6⟩ | ⟨h6, h7, h8⟩
      · exact ⟨m' + 1, t, k, by omega, h6⟩
      · obtain ⟨m2, t2, k2, h9, h10⟩ := ih (m' + 1) (by omega) h7 h6 h8
        exact ⟨m2, t2, k2, by omega, h10⟩
  rcases hp with ⟨e, hp⟩ | hp | hp
  · obtain ⟨m', ch, h3, h4, h5⟩ := h.first (n := m) (t := t) (by rw [hp]; exact ⟨by simp, by simp, by simp⟩)
    rw [hp] at h5
    have hheld : (R m').held = false := (held_reach (h.reach m')).free (hfree m' (by omega)).1
    by_cases hfull : (R m').queued = c.capacity
    · refine ⟨m' + 1, t, .retry e, by omega, ?_⟩
      rw [h4]; unfold step; simp only [h5]; rw [if_pos hfull]; simp [setPc, upd]
    · have h6 : ∃ i, (R (m' + 1)).pc t = .count i := by
        rw [h4]; unfold step; simp only [h5]; rw [if_neg hfull, if_neg (by rw [hheld]; simp)]
        exact ⟨_, by simp [setPc, upd]; rfl⟩
      obtain ⟨i, h6⟩ := h6
      obtain ⟨m2, t2, k2, h9, h10⟩ := htail _ (m' + 1) (by omega) (by rw [h6]; simp [PC.tail]) (by rw [h6]; simp) (Nat.le_refl _)
      exact ⟨m2, t2, k2, by omega, h10⟩
  · exact ⟨m, t, _, hm, hp⟩
  · obtain ⟨m2, t2, k2, h9, h10⟩ := htail _ m hm (by rw [hp]; decide) (by rw [hp]; simp) (Nat.le_refl _)
    exact ⟨m2, t2, k2, by omega, h10⟩

end SinkConc
end Soralog
