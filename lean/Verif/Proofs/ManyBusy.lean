import Verif.Proofs.ManyRotate
/-! # A thread that calls `rotate()` while the others go on for ever -/
namespace Soralog
namespace Many

mutual
theorem rotatePlan_only {x : Nat × Req} {s : Sink.Snk} (h : x ∈ rotatePlan s) : x.2 = .rotate ∧ Under x.1 s := by
  cases s with
  | leaf i => rw [rotatePlan] at h; rw [List.mem_singleton.1 h]; exact ⟨rfl, .self⟩
  | multi lv subs =>
    rw [rotatePlan] at h
    obtain ⟨h1, y, h2, h3⟩ := rotatePlanAll_only h
    exact ⟨h1, .sub h2 h3⟩
theorem rotatePlanAll_only {x : Nat × Req} {ss : List Sink.Snk} (h : x ∈ rotatePlanAll ss) : x.2 = .rotate ∧ ∃ y ∈ ss, Under x.1 y := by
  cases ss with
  | nil => rw [rotatePlanAll] at h; cases h
  | cons y ys =>
    rw [rotatePlanAll] at h
    rcases List.mem_append.1 h with h | h
    · obtain ⟨h1, h2⟩ := rotatePlan_only h; exact ⟨h1, y, List.mem_cons_self .., h2⟩
    · obtain ⟨h1, z, h2, h3⟩ := rotatePlanAll_only h; exact ⟨h1, z, List.mem_cons_of_mem _ h2, h3⟩
end

namespace Lock
open SinkConc (workerTid)

/-- what the start of a call changes: nothing in the sinks and only the list of the thread that makes it, or that thread starts to destroy a sink -/
theorem Exec.shape {S : Setup} {s s' : St} (h : Exec S s s') (hg : ¬ Go S s s') :
    ∃ u, u ≠ workerTid ∧ Free s.prog u ∧ ((s'.prog.leaf = s.prog.leaf ∧ ∀ t, t ≠ u → s'.prog.todo t = s.prog.todo t) ∨
      ∃ i, s'.prog.todo = s.prog.todo ∧ s'.prog.leaf = upd s.prog.leaf i (SinkFull.setPc { s.prog.leaf i with owner := some u } u .dStart)) := by
  cases h with
  | go h => exact absurd h hg
  | call u op fuel o sys' ht hf hb hi hm hl hc => exact ⟨u, ht, hf, .inl ⟨rfl, fun t h => System.upd_other _ _ h⟩⟩
  | configure u ht hf hi hb hc hn => exact ⟨u, ht, hf, .inl ⟨rfl, fun t h => System.upd_other _ _ h⟩⟩
  | makeGroup u a ht hf hb hi => exact ⟨u, ht, hf, .inl ⟨rfl, fun t h => System.upd_other _ _ h⟩⟩
  | log u i r ht hf hb hi ha => exact ⟨u, ht, hf, .inl ⟨rfl, fun t h => System.upd_other _ _ h⟩⟩
  | flush u i ht hf hb hi ha => exact ⟨u, ht, hf, .inl ⟨rfl, fun t h => System.upd_other _ _ h⟩⟩
  | direct u k d ht hf hb hi => exact ⟨u, ht, hf, .inl ⟨rfl, fun t h => System.upd_other _ _ h⟩⟩
  | destroy u i ht hf hi ho hc hn => exact ⟨u, ht, hf, .inr ⟨i, rfl, rfl⟩⟩

/-- a doing, as one of a sink nobody destroys -/
theorem Does.atKept {S : Setup} {s s' : St} {d : Deed} (h : Does S s d s') (hg : d = .start → s' = s ∨ ¬ Go S s s') {i : Nat} (ho : (s'.prog.leaf i).owner = none) :
    ∃ d', SinkFull.Does (S.leaf i).conc (s.prog.leaf i) d' (s'.prog.leaf i) ∧ (∀ t ch, d = .leaf i t ch → d' = .step t ch) ∧
      (∀ t ch, d' = .step t ch → d = .leaf i t ch) := by
  by_cases hd : d = .start
  · have same : s'.prog.leaf i = s.prog.leaf i := by
      rcases hg hd with e | e
      · rw [e]
      · subst hd
        obtain ⟨u, _, _, ⟨e, _⟩ | ⟨j, _, e⟩⟩ := Exec.shape h e
        · rw [e]
        · by_cases hj : i = j
          · subst hj; rw [e, System.upd_same] at ho; cases ho
          · rw [e, System.upd_other _ _ hj]
    exact ⟨.rest, same, (fun _ _ e => by rw [hd] at e; cases e), (fun _ _ e => by cases e)⟩
  · obtain ⟨d', h1, h2, h3, _⟩ := h.atLeaf hd i
    exact ⟨d', h1, h2, h3⟩

/-- a sink that nobody destroys, on its own -/
theorem Endless.keptRun {S : Setup} {σ : Nat → Deed} {R : Nat → St} (h : Endless S σ R) (hg : StartsAreCalls S σ R) {i : Nat}
    (ho : ∀ n, ((R n).prog.leaf i).owner = none) :
    ∃ σ', SinkFull.Endless (S.leaf i).conc (S.leaf i).opened σ' (fun n => (R n).prog.leaf i) ∧ (∀ n t ch, σ' n = .step t ch → σ n = .leaf i t ch) := by
  have h1 := fun n => (h.next n).atKept (hg n) (ho (n + 1))
  obtain ⟨σ', hσ⟩ := Classical.skolem.1 h1
  refine ⟨σ', ⟨leaf_reach (reach_prog h.start) i, fun n => (hσ n).1, fun n t hr => ?_⟩, fun n => (hσ n).2.2⟩
  obtain ⟨m, ch, hm, he⟩ := h.inside n i t hr
  exact ⟨m, ch, hm, (hσ m).2.1 t ch he⟩

/-- what others do leaves alone a thread that is in a call of sinks, between two of them or inside one -/
theorem Does.others {S : Setup} {s s' : St} {d : Deed} (h : Does S s d s') (hg : d = .start → s' = s ∨ ¬ Go S s s') {t : Tid} (ht : t ≠ workerTid)
    (hb : ¬ Free s.prog t) (hd : d ≠ .enter t) (hl : ∀ j ch, d ≠ .leaf j t ch) :
    s'.prog.todo t = s.prog.todo t ∧ ∀ j, (s'.prog.leaf j).pc t = (s.prog.leaf j).pc t := by
  cases d with
  | step u =>
    obtain ⟨_, h2, _, _, _, rfl⟩ := h
    exact ⟨System.upd_other _ _ fun e => by subst e; exact hb h2, fun _ => rfl⟩
  | unlock u => obtain ⟨_, _, rfl⟩ := h; exact ⟨rfl, fun _ => rfl⟩
  | configured u => obtain ⟨_, _, _, _, rfl⟩ := h; exact ⟨rfl, fun _ => rfl⟩
  | enter u =>
    obtain ⟨i, q, rest, call, _, _, _, _, _, _, rfl⟩ := h
    have hu : t ≠ u := fun e => by subst e; exact hd rfl
    refine ⟨System.upd_other _ _ hu, fun j => ?_⟩
    show (upd s.prog.leaf i _ j).pc t = _
    by_cases hj : j = i
    · subst hj; rw [System.upd_same]; exact System.upd_other _ _ hu
    · rw [System.upd_other _ _ hj]
  | leaf i u ch =>
    rw [show s' = _ from h]
    have hu : t ≠ u := fun e => by subst e; exact hl _ _ rfl
    refine ⟨rfl, fun j => ?_⟩
    show (upd s.prog.leaf i _ j).pc t = _
    by_cases hj : j = i
    · subst hj; rw [System.upd_same]; exact Race.step_pc_other _ _ _ _ _ hu
    · rw [System.upd_other _ _ hj]
  | rest => rw [show s' = _ from h]; exact ⟨rfl, fun _ => rfl⟩
  | start =>
    rcases hg rfl with e | e
    · rw [e]; exact ⟨rfl, fun _ => rfl⟩
    · obtain ⟨u, _, hf, ⟨e1, e2⟩ | ⟨i, e1, e2⟩⟩ := Exec.shape h e
      · rw [e1]; exact ⟨e2 t fun e => by subst e; exact hb hf, fun _ => rfl⟩
      · have hu : t ≠ u := fun e => by subst e; exact hb hf
        rw [e1, e2]
        refine ⟨rfl, fun j => ?_⟩
        by_cases hj : j = i
        · subst hj; rw [System.upd_same]; exact System.upd_other _ _ hu
        · rw [System.upd_other _ _ hj]

/-- thread `t` is between two sinks of its call; these are left -/
def Between (s : St) (t : Tid) (l : List (Nat × Req)) : Prop := s.prog.todo t = l ∧ ∀ j, quiet ((s.prog.leaf j).pc t)

/-- thread `t` is inside `rotate()` of sink `j`; these are left -/
def Rotating (S : Setup) (s : St) (t : Tid) (j : Nat) (l : List (Nat × Req)) : Prop :=
  s.prog.todo t = l ∧ ((s.prog.leaf j).pc t = .rotate ∨ ((s.prog.leaf j).pc t = .async ∧ (S.leaf j).conc.isFile = true)) ∧ ∀ i, i ≠ j → quiet ((s.prog.leaf i).pc t)

theorem Does.between {S : Setup} {s s' : St} {d : Deed} (h : Does S s d s') (hg : d = .start → s' = s ∨ ¬ Go S s s') {t : Tid} (ht : t ≠ workerTid)
    {x : Nat × Req} {l : List (Nat × Req)} (hb : Between s t (x :: l)) (hd : d ≠ .enter t) : Between s' t (x :: l) := by
  obtain ⟨h1, h2⟩ := hb
  by_cases hl : ∃ j ch, d = .leaf j t ch
  · obtain ⟨j, ch, rfl⟩ := hl
    rw [show s' = _ from h]
    refine ⟨h1, fun i => ?_⟩
    show quiet ((upd s.prog.leaf j _ i).pc t)
    by_cases hj : i = j
    · subst hj; rw [System.upd_same]; exact leaf_quiet_step (h2 i)
    · rw [System.upd_other _ _ hj]; exact h2 i
  · obtain ⟨h3, h4⟩ := h.others hg ht (fun hf => by rw [hf.1] at h1; cases h1) hd fun j ch e => hl ⟨j, ch, e⟩
    exact ⟨h3.trans h1, fun j => by rw [h4]; exact h2 j⟩

/-- the thread enters the next sink -/
theorem Endless.enters {S : Setup} (hS : ∀ i, 0 < (S.leaf i).conc.capacity) {σ : Nat → Deed} {R : Nat → St} (h : Endless S σ R) (hg : StartsAreCalls S σ R)
    {t : Tid} (ht : t ≠ workerTid) {i : Nat} (ho : ∀ n, ((R n).prog.leaf i).owner = none) {l : List (Nat × Req)} {n : Nat}
    (hb : Between (R n) t ((i, .rotate) :: l)) : ∃ m, n ≤ m ∧ Rotating S (R m) t i l ∧ ((R m).prog.leaf i).pc t = .rotate := by
  refine Classical.byContradiction fun hne => ?_
  have now : ∀ m, n ≤ m → Between (R m) t ((i, .rotate) :: l) → σ m ≠ .enter t := by
    intro m hm hbm e
    have hd := h.next m
    rw [e] at hd
    obtain ⟨i', q, rest, call, _, h2, h3, _, _, h6, h7⟩ := hd
    rw [hbm.1] at h2
    injection h2 with e1 e2
    injection e1 with e3 e4
    subst e2 e3 e4
    cases h6
    have hp : ((R (m + 1)).prog.leaf i).pc t = .rotate := by
      rw [h7]
      show ((upd (R m).prog.leaf i _ i).pc t) = _
      rw [System.upd_same]
      exact System.upd_same _ _ _
    refine hne ⟨m + 1, by omega, ⟨?_, .inl hp, fun j hj => ?_⟩, hp⟩
    · rw [h7]; exact System.upd_same _ _ _
    · rw [h7]
      show quiet ((upd (R m).prog.leaf i _ j).pc t)
      rw [System.upd_other _ _ hj]; exact h3 j
  have hall : ∀ k, Between (R (n + k)) t ((i, .rotate) :: l) := by
    intro k
    induction k with
    | zero => exact hb
    | succ k ih => exact (h.next (n + k)).between (hg _) ht ih (now _ (by omega) ih)
  obtain ⟨m, hm, he⟩ := h.fair n (.enter t) rfl fun m hm => by
    have hbm := hall (m - n)
    rw [show n + (m - n) = m by omega] at hbm
    refine ⟨_, i, .rotate, l, .rotate, ht, hbm.1, hbm.2, ?_, ho m, .rotate, rfl⟩
    rcases hbm.2 i with e | e
    · exact e
    · exact absurd e (owner_not_dead (hS i) (leaf_reach (reach_prog (h.reach m)) i) (ho m) ht)
  have hbm := hall (m - n)
  rw [show n + (m - n) = m by omega] at hbm
  exact now m hm hbm he

theorem Does.rotating {S : Setup} {s s' : St} {d : Deed} (h : Does S s d s') (hg : d = .start → s' = s ∨ ¬ Go S s s') {t : Tid} (ht : t ≠ workerTid)
    {j : Nat} (hlat : (S.leaf j).conc.isFile = true → (S.leaf j).conc.latency0 = false) {l : List (Nat × Req)} (hb : Rotating S s t j l) :
    Rotating S s' t j l ∨ Between s' t l := by
  obtain ⟨h1, h2, h3⟩ := hb
  have hq : ¬ quiet ((s.prog.leaf j).pc t) := by rcases h2 with e | ⟨e, _⟩ <;> rw [e] <;> rintro (e | e) <;> cases e
  by_cases hl : ∃ j ch, d = .leaf j t ch
  · obtain ⟨i, ch, rfl⟩ := hl
    rw [show s' = _ from h]
    by_cases hj : i = j
    · subst hj
      have others : ∀ k, k ≠ i → quiet ((upd s.prog.leaf i (SinkFull.step (S.leaf i).conc (s.prog.leaf i) t ch) k).pc t) := fun k hk => by
        rw [System.upd_other _ _ hk]; exact h3 k hk
      have out : (SinkFull.step (S.leaf i).conc (s.prog.leaf i) t ch).pc t = .idle →
          Between { s with prog := { s.prog with leaf := upd s.prog.leaf i (SinkFull.step (S.leaf i).conc (s.prog.leaf i) t ch) } } t l := fun e => ⟨h1, fun k => by
        show quiet ((upd s.prog.leaf i (SinkFull.step (S.leaf i).conc (s.prog.leaf i) t ch) k).pc t)
        by_cases hk : k = i
        · subst hk; rw [System.upd_same]; exact .inl e
        · exact others k hk⟩
      rcases h2 with e | ⟨e, hf⟩
      · by_cases hf : (S.leaf i).conc.isFile = true
        · refine .inl ⟨h1, .inr ⟨?_, hf⟩, others⟩
          show (upd s.prog.leaf i _ i).pc t = _
          rw [System.upd_same]; unfold SinkFull.step; simp only [e]; rw [if_pos hf]; exact System.upd_same _ _ _
        · exact .inr (out (by unfold SinkFull.step; simp only [e]; rw [if_neg hf]; exact System.upd_same _ _ _))
      · exact .inr (out (by
          unfold SinkFull.step; simp only [e]; rw [if_neg (by rw [hlat hf]; simp)]; exact System.upd_same _ _ _))
    · refine .inl ⟨h1, ?_, fun k hk => ?_⟩
      · show (upd s.prog.leaf i _ j).pc t = _ ∨ ((upd s.prog.leaf i _ j).pc t = _ ∧ _)
        rw [System.upd_other _ _ (Ne.symm hj)]; exact h2
      · show quiet ((upd s.prog.leaf i _ k).pc t)
        by_cases hki : k = i
        · subst hki; rw [System.upd_same]; exact leaf_quiet_step (h3 k hk)
        · rw [System.upd_other _ _ hki]; exact h3 k hk
  · by_cases he : d = .enter t
    · subst he
      obtain ⟨_, _, _, _, _, _, h8, _⟩ := h
      exact absurd (h8 j) hq
    · obtain ⟨h4, h5⟩ := h.others hg ht (fun hf => hq (hf.2 j)) he fun j ch e => hl ⟨j, ch, e⟩
      exact .inl ⟨h4.trans h1, by rw [h5]; exact h2, fun i hi => by rw [h5]; exact h3 i hi⟩

/-- the thread gets out again -/
theorem Endless.rotate_ends {S : Setup} {σ : Nat → Deed} {R : Nat → St} (h : Endless S σ R) (hg : StartsAreCalls S σ R)
    {t : Tid} (ht : t ≠ workerTid) {j : Nat} (hlat : (S.leaf j).conc.isFile = true → (S.leaf j).conc.latency0 = false)
    (ho : ∀ n, ((R n).prog.leaf j).owner = none) {l : List (Nat × Req)} {n : Nat}
    (hb : Rotating S (R n) t j l) : ∃ m, n ≤ m ∧ Between (R m) t l := by
  refine Classical.byContradiction fun hne => ?_
  have hall : ∀ k, Rotating S (R (n + k)) t j l := by
    intro k
    induction k with
    | zero => exact hb
    | succ k ih => exact ((h.next (n + k)).rotating (hg _) ht hlat ih).resolve_right fun e => hne ⟨_, by omega, e⟩
  have hall' : ∀ m, n ≤ m → Rotating S (R m) t j l := fun m hm => by
    have := hall (m - n); rw [show n + (m - n) = m by omega] at this; exact this
  obtain ⟨σ', h1, _⟩ := h.keptRun hg ho
  have run : ∀ m, n ≤ m → SinkFull.Running (((R m).prog.leaf j).pc t) := fun m hm => by
    rcases (hall' m hm).2.1 with e | ⟨e, _⟩ <;> rw [e] <;> exact ⟨by simp, by simp, by simp⟩
  have last : ∀ m, n ≤ m → ((R m).prog.leaf j).pc t ≠ .async := fun m hm e => by
    obtain ⟨m', ch, h5, _, h6, h7, _⟩ := h1.first (n := m) (t := t) (run m hm)
    rw [e] at h7
    have hf : (S.leaf j).conc.isFile = true := by
      rcases (hall' m hm).2.1 with e' | ⟨_, e'⟩
      · rw [e] at e'; cases e'
      · exact e'
    have : ((R (m' + 1)).prog.leaf j).pc t = .idle := by
      rw [h6]; unfold SinkFull.step; simp only [h7]; rw [if_neg (by rw [hlat hf]; simp)]; exact System.upd_same _ _ _
    rcases (hall' (m' + 1) (by omega)).2.1 with e | ⟨e, _⟩ <;> rw [this] at e <;> cases e
  obtain ⟨m', ch, h5, _, h6, h7, _⟩ := h1.first (n := n) (t := t) (run n (Nat.le_refl _))
  have h7 : ((R m').prog.leaf j).pc t = .rotate := by
    rcases (hall' m' h5).2.1 with e | ⟨e, _⟩
    · exact e
    · exact absurd e (last m' h5)
  have hnot := last (m' + 1) (by omega)
  rcases (hall' (m' + 1) (by omega)).2.1 with e | ⟨e, _⟩
  · rw [h6] at e; unfold SinkFull.step at e; simp only [h7] at e
    split at e
    · rw [show (SinkFull.setPc _ t _).pc t = _ from System.upd_same _ _ _] at e; cases e
    · rw [show (SinkFull.setPc _ t _).pc t = _ from System.upd_same _ _ _] at e; cases e
  · exact hnot e

/-- and so comes to every sink of its list -/
theorem Endless.comes_to {S : Setup} (hS : ∀ i, 0 < (S.leaf i).conc.capacity) {σ : Nat → Deed} {R : Nat → St} (h : Endless S σ R) (hg : StartsAreCalls S σ R)
    {t : Tid} (ht : t ≠ workerTid) {i : Nat} (l : List (Nat × Req)) (hr : ∀ x ∈ l, x.2 = .rotate)
    (ho : ∀ x ∈ l, ∀ n, ((R n).prog.leaf x.1).owner = none) (hlat : ∀ x ∈ l, (S.leaf x.1).conc.isFile = true → (S.leaf x.1).conc.latency0 = false)
    (hi : (i, Req.rotate) ∈ l) : ∀ n, Between (R n) t l → ∃ m, n ≤ m ∧ ((R m).prog.leaf i).pc t = .rotate := by
  induction l with
  | nil => cases hi
  | cons x l ih =>
    intro n hb
    obtain ⟨j, q⟩ := x
    have : q = .rotate := hr _ (List.mem_cons_self ..)
    subst this
    have hoj := ho _ (List.mem_cons_self ..)
    obtain ⟨m, hm, h1, h2⟩ := h.enters hS hg ht hoj hb
    rcases List.mem_cons.1 hi with e | e
    · cases e; exact ⟨m, hm, h2⟩
    · obtain ⟨m', hm', h3⟩ := h.rotate_ends hg ht (hlat _ (List.mem_cons_self ..)) hoj h1
      obtain ⟨m2, h4, h5⟩ := ih (fun x hx => hr x (List.mem_cons_of_mem _ hx)) (fun x hx => ho x (List.mem_cons_of_mem _ hx))
        (fun x hx => hlat x (List.mem_cons_of_mem _ hx)) e m' h3
      exact ⟨m2, by omega, h5⟩

/-- the request is carried out although the others go on -/
theorem Endless.rotates {S : Setup} (hS : ∀ i, 0 < (S.leaf i).conc.capacity) {σ : Nat → Deed} {R : Nat → St} (h : Endless S σ R) (hg : StartsAreCalls S σ R)
    (hl : NobodyStarves R) (hw : WaitsEnd R) (hc : NoSpuriousFailure σ) (hr : CanReopen σ) {t : Tid} (ht : t ≠ workerTid) {k : Nat}
    (ho : ∀ i, Under i (S.snk k) → ∀ n, ((R n).prog.leaf i).owner = none)
    (hlat : ∀ i, Under i (S.snk k) → (S.leaf i).conc.isFile = true → (S.leaf i).conc.latency0 = false)
    (hb : Between (R 0) t (rotatePlan (S.snk k))) {i : Nat} (hi : Under i (S.snk k)) (hop : (S.leaf i).opened = true) (hf : (S.leaf i).conc.isFile = true) :
    ∃ m, SinkFull.reopened ((R 0).prog.leaf i) < SinkFull.reopened ((R m).prog.leaf i) := by
  obtain ⟨n, _, hn⟩ := h.comes_to hS hg ht (rotatePlan (S.snk k)) (fun x hx => (rotatePlan_only hx).1) (fun x hx => ho _ (rotatePlan_only hx).2)
    (fun x hx => hlat _ (rotatePlan_only hx).2) (rotatePlan_mem hi) 0 hb
  obtain ⟨σ', h1, h2⟩ := h.keptRun hg (ho i hi)
  rw [hop] at h1
  obtain ⟨m, ch, h5, _, h6, h7, _⟩ := h1.first (n := n) (t := t) (by rw [hn]; exact ⟨by simp, by simp, by simp⟩)
  rw [hn] at h7
  obtain ⟨k', h8, h9⟩ := h1.worker_rotates (hS i) (hl i) (hlat i hi hf) (hw i) (fun n t ch e => hc n i t ch (h2 n t ch e)) (fun n t ch e => hr n i t ch (h2 n t ch e))
    hf (ho i hi) (n := m + 1) (by rw [h6]; unfold SinkFull.step; simp only [h7]; rw [if_pos hf]; rfl)
  exact ⟨k', Nat.lt_of_le_of_lt (h1.gens_mono (Nat.zero_le (m + 1))) h9⟩

end Lock
end Many
end Soralog
