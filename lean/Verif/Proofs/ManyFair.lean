import Verif.Spec.ManyFair
import Verif.Proofs.ManyLock
import Verif.Props.Many
import Verif.Props.Deliver
/-!
# Proofs: a program that starts no more calls comes to rest, and its log gets complete
-/
namespace Soralog
namespace Many
namespace Lock
open Spec
open SinkConc (workerTid)
open SinkFull (accepted acceptedFrom)

theorem Does.go {S : Setup} {s s' : St} {d : Deed} (h : Does S s d s') (hd : d ≠ .start) : s' = s ∨ Go S s s' := by
  cases d with
  | step t => obtain ⟨h1, h2, h3, h4, h5, rfl⟩ := h; exact .inr (.step s t h1 h2 h3 h4 h5)
  | unlock t => obtain ⟨h1, h2, rfl⟩ := h; exact .inr (.unlock s t h1 h2)
  | configured t => obtain ⟨h1, h2, h3, h4, rfl⟩ := h; exact .inr (.configured s t h1 h2 h3 h4)
  | enter t => obtain ⟨i, q, rest, call, h1, h2, h3, h4, h5, h6, rfl⟩ := h; exact .inr (.enter s t i q rest call h1 h2 h3 h4 h5 h6)
  | leaf i t ch => rw [show s' = _ from h]; exact .inr (.leaf s i t ch)
  | start => exact absurd rfl hd
  | rest => exact .inl h

theorem Does.reach {S : Setup} {s s' : St} {d : Deed} (h : Does S s d s') (hr : Reach S s) : Reach S s' := by
  by_cases hd : d = .start
  · subst hd; exact .next hr h
  · rcases h.go hd with h | h
    · rw [h]; exact hr
    · exact .next hr (.go h)

theorem Endless.reach {S : Setup} {σ : Nat → Deed} {R : Nat → St} (h : Endless S σ R) (n : Nat) : Reach S (R n) := by
  induction n with
  | zero => exact h.start
  | succ n ih => exact (h.next n).reach ih

theorem Endless.shift {S : Setup} {σ : Nat → Deed} {R : Nat → St} (h : Endless S σ R) (N : Nat) :
    Endless S (fun n => σ (N + n)) (fun n => R (N + n)) := by
  refine ⟨h.reach N, fun n => h.next (N + n), fun n d hd hp => ?_, fun n i t hr => ?_⟩
  · obtain ⟨m, h1, h2⟩ := h.fair (N + n) d hd fun m hm => by
      have := hp (m - N) (by omega)
      rw [show N + (m - N) = m by omega] at this; exact this
    exact ⟨m - N, by omega, by rw [show N + (m - N) = m by omega]; exact h2⟩
  · obtain ⟨m, ch, h1, h2⟩ := h.inside (N + n) i t hr
    exact ⟨m - N, ch, by omega, by rw [show N + (m - N) = m by omega]; exact h2⟩

/-! ### what one doing changes -/

theorem Does.sys {S : Setup} {s s' : St} {d : Deed} (h : Does S s d s') (hd : d ≠ .start) (hs : ∀ t, d ≠ .step t) : s'.prog.sys = s.prog.sys := by
  cases d with
  | step t => exact absurd rfl (hs t)
  | unlock t => obtain ⟨h1, h2, rfl⟩ := h; rfl
  | configured t => obtain ⟨h1, h2, h3, h4, rfl⟩ := h; rfl
  | enter t => obtain ⟨i, q, rest, call, h1, h2, h3, h4, h5, h6, rfl⟩ := h; rfl
  | leaf i t ch => rw [show s' = _ from h]
  | start => exact absurd rfl hd
  | rest => rw [show s' = _ from h]

theorem Does.said {S : Setup} {s s' : St} {d : Deed} (h : Does S s d s') (hd : d ≠ .start) (hs : ∀ t, d ≠ .step t) : s'.prog.said = s.prog.said := by
  cases d with
  | step t => exact absurd rfl (hs t)
  | unlock t => obtain ⟨h1, h2, rfl⟩ := h; rfl
  | configured t => obtain ⟨h1, h2, h3, h4, rfl⟩ := h; rfl
  | enter t => obtain ⟨i, q, rest, call, h1, h2, h3, h4, h5, h6, rfl⟩ := h; rfl
  | leaf i t ch => rw [show s' = _ from h]
  | start => exact absurd rfl hd
  | rest => rw [show s' = _ from h]

theorem Does.todo {S : Setup} {s s' : St} {d : Deed} (h : Does S s d s') (hd : d ≠ .start) (hs : ∀ t, d ≠ .step t) :
    s'.prog.todo = s.prog.todo ∨ ∃ t x rest, d = .enter t ∧ s.prog.todo t = x :: rest ∧ s'.prog.todo = upd s.prog.todo t rest := by
  cases d with
  | step t => exact absurd rfl (hs t)
  | unlock t => obtain ⟨h1, h2, rfl⟩ := h; exact .inl rfl
  | configured t => obtain ⟨h1, h2, h3, h4, rfl⟩ := h; exact .inl rfl
  | enter t => obtain ⟨i, q, rest, call, h1, h2, h3, h4, h5, h6, rfl⟩ := h; exact .inr ⟨t, _, _, rfl, h2, rfl⟩
  | leaf i t ch => rw [show s' = _ from h]; exact .inl rfl
  | start => exact absurd rfl hd
  | rest => rw [show s' = _ from h]; exact .inl rfl

theorem Does.busy {S : Setup} {s s' : St} {d : Deed} (h : Does S s d s') (hd : d ≠ .start) (hs : ∀ t, d ≠ .step t) :
    s'.busy = none ∨ (s'.busy = s.busy ∧ ∀ t, d ≠ .unlock t) := by
  cases d with
  | step t => exact absurd rfl (hs t)
  | unlock t => obtain ⟨h1, h2, rfl⟩ := h; exact .inl rfl
  | configured t => obtain ⟨h1, h2, h3, h4, rfl⟩ := h; exact .inr ⟨rfl, (fun _ e => by cases e)⟩
  | enter t => obtain ⟨i, q, rest, call, h1, h2, h3, h4, h5, h6, rfl⟩ := h; exact .inr ⟨rfl, (fun _ e => by cases e)⟩
  | leaf i t ch => rw [show s' = _ from h]; exact .inr ⟨rfl, (fun _ e => by cases e)⟩
  | start => exact absurd rfl hd
  | rest => rw [show s' = _ from h]; exact .inr ⟨rfl, (fun _ e => by cases e)⟩

theorem Does.conf {S : Setup} {s s' : St} {d : Deed} (h : Does S s d s') (hd : d ≠ .start) :
    s'.conf = none ∨ (s'.conf = s.conf ∧ ∀ t, d ≠ .configured t) := by
  cases d with
  | step t => obtain ⟨h1, h2, h3, h4, h5, rfl⟩ := h; exact .inr ⟨rfl, (fun _ e => by cases e)⟩
  | unlock t => obtain ⟨h1, h2, rfl⟩ := h; exact .inr ⟨rfl, (fun _ e => by cases e)⟩
  | configured t => obtain ⟨h1, h2, h3, h4, rfl⟩ := h; exact .inl rfl
  | enter t => obtain ⟨i, q, rest, call, h1, h2, h3, h4, h5, h6, rfl⟩ := h; exact .inr ⟨rfl, (fun _ e => by cases e)⟩
  | leaf i t ch => rw [show s' = _ from h]; exact .inr ⟨rfl, (fun _ e => by cases e)⟩
  | start => exact absurd rfl hd
  | rest => rw [show s' = _ from h]; exact .inr ⟨rfl, (fun _ e => by cases e)⟩

/-- what one doing that is no start is for one sink -/
theorem Does.atLeaf {S : Setup} {s s' : St} {d : Deed} (h : Does S s d s') (hd : d ≠ .start) (i : Nat) :
    ∃ d', SinkFull.Does (S.leaf i).conc (s.prog.leaf i) d' (s'.prog.leaf i) ∧ (∀ t ch, d = .leaf i t ch → d' = .step t ch) ∧
      (∀ t ch, d' = .step t ch → d = .leaf i t ch) ∧ (∀ t k, d' = .call t k → d = .enter t) ∧ (∀ t, d' ≠ .destroy t) := by
  have nothing : s'.prog.leaf i = s.prog.leaf i → (∀ t ch, d ≠ .leaf i t ch) → ∃ d', SinkFull.Does (S.leaf i).conc (s.prog.leaf i) d' (s'.prog.leaf i) ∧
      (∀ t ch, d = .leaf i t ch → d' = .step t ch) ∧ (∀ t ch, d' = .step t ch → d = .leaf i t ch) ∧ (∀ t k, d' = .call t k → d = .enter t) ∧
      (∀ t, d' ≠ .destroy t) := fun e hn => by
    rw [e]
    exact ⟨.rest, rfl, fun t ch e => absurd e (hn t ch), (fun _ _ e => by cases e), (fun _ _ e => by cases e), (fun _ e => by cases e)⟩
  cases d with
  | step t => obtain ⟨h1, h2, h3, h4, h5, rfl⟩ := h; exact nothing rfl fun _ _ e => by cases e
  | unlock t => obtain ⟨h1, h2, rfl⟩ := h; exact nothing rfl fun _ _ e => by cases e
  | configured t => obtain ⟨h1, h2, h3, h4, rfl⟩ := h; exact nothing rfl fun _ _ e => by cases e
  | enter t =>
    obtain ⟨j, q, rest, call, h1, h2, h3, h4, h5, h6, rfl⟩ := h
    by_cases hij : i = j
    · subst hij
      refine ⟨.call t call, ⟨h1, h4, h5, ?_⟩, (fun _ _ e => by cases e), (fun _ _ e => by cases e), (fun u k e => by cases e; rfl), (fun _ e => by cases e)⟩
      show upd s.prog.leaf i _ i = _
      rw [System.upd_same]
    · refine nothing ?_ fun _ _ e => by cases e
      show upd s.prog.leaf j _ i = _
      rw [System.upd_other _ _ hij]
  | leaf j t ch =>
    rw [show s' = _ from h]
    by_cases hij : i = j
    · subst hij
      refine ⟨.step t ch, ?_, (fun _ _ e => by cases e; rfl), (fun _ _ e => by cases e; rfl), (fun _ _ e => by cases e), (fun _ e => by cases e)⟩
      show upd s.prog.leaf i _ i = _
      rw [System.upd_same]
    · rw [show s' = _ from h] at nothing
      refine nothing ?_ fun u c e => by cases e; exact hij rfl
      show upd s.prog.leaf j _ i = _
      rw [System.upd_other _ _ hij]
  | start => exact absurd rfl hd
  | rest => rw [show s' = _ from h] at nothing ⊢; exact nothing rfl fun _ _ e => by cases e

/-! ### counting -/

theorem dies_out {f : Nat → Nat} {P : Nat → Prop} (h1 : ∀ n, f (n + 1) ≤ f n) (h2 : ∀ n, P n → f (n + 1) < f n) : ∃ M, ∀ n, M ≤ n → ¬ P n := by
  have mono : ∀ k n, f (n + k) ≤ f n := by
    intro k
    induction k with
    | zero => intro n; exact Nat.le_refl _
    | succ k ih => intro n; exact Nat.le_trans (h1 _) (ih n)
  have key : ∀ b N, f N ≤ b → ∃ M, ∀ n, M ≤ n → ¬ P n := by
    intro b
    induction b with
    | zero =>
      intro N hN
      refine ⟨N, fun n hn hp => ?_⟩
      have := mono (n - N) N
      rw [show N + (n - N) = n by omega] at this
      have := h2 n hp
      omega
    | succ b ih =>
      intro N hN
      by_cases hex : ∃ n, N ≤ n ∧ P n
      · obtain ⟨n, hn, hp⟩ := hex
        have := mono (n - N) N
        rw [show N + (n - N) = n by omega] at this
        have := h2 n hp
        exact ih (n + 1) (by omega)
      · exact ⟨N, fun n hn hp => hex ⟨n, hn, hp⟩⟩
  exact key _ 0 (Nat.le_refl _)

def total (ts : List Tid) (f : Tid → Nat) : Nat := (ts.map f).sum

theorem total_le {ts : List Tid} {f g : Tid → Nat} (h : ∀ t, f t ≤ g t) : total ts f ≤ total ts g := by
  unfold total
  induction ts with
  | nil => exact Nat.le_refl _
  | cons t ts ih => simp only [List.map_cons, List.sum_cons]; have := h t; omega

theorem total_lt {ts : List Tid} {f g : Tid → Nat} (h : ∀ t, f t ≤ g t) {u : Tid} (hu : u ∈ ts) (hlt : f u < g u) : total ts f < total ts g := by
  induction ts with
  | nil => cases hu
  | cons t ts ih =>
    have h1 : total ts f ≤ total ts g := total_le h
    have h2 := h t
    unfold total at *
    simp only [List.map_cons, List.sum_cons]
    rcases List.mem_cons.1 hu with e | e
    · subst e; omega
    · have := ih e; omega

/-! ### no more calls: from the beginning of the run -/

structure Last (S : Setup) (σ : Nat → Deed) (R : Nat → St) : Prop where
  run : Endless S σ R
  nostart : ∀ n, σ n ≠ .start
  kept : SinksKept S (R 0).prog

theorem Last.shift {S : Setup} {σ : Nat → Deed} {R : Nat → St} (h : Last S σ R) (N : Nat) : Last S (fun n => σ (N + n)) (fun n => R (N + n)) := by
  refine ⟨h.run.shift N, fun n => h.nostart _, ?_⟩
  show SinksKept S (R (N + 0)).prog
  rw [Nat.add_zero]
  induction N with
  | zero => exact h.kept
  | succ N ih =>
    rcases (h.run.next N).go (h.nostart N) with e | e
    · rw [e]; exact ih
    · exact kept_go ih e

theorem Last.kept_at {S : Setup} {σ : Nat → Deed} {R : Nat → St} (h : Last S σ R) (n : Nat) : SinksKept S (R n).prog := (h.shift n).kept

theorem Last.rest_on {S : Setup} {σ : Nat → Deed} {R : Nat → St} (h : Last S σ R) {t : Tid} {n : Nat} (hr : AtRest (R n) t) {m : Nat} (hm : n ≤ m) : AtRest (R m) t := by
  have : ∀ k, AtRest (R (n + k)) t := by
    intro k
    induction k with
    | zero => exact hr
    | succ k ih =>
      rcases (h.run.next (n + k)).go (h.nostart _) with e | e
      · show AtRest (R (n + k + 1)) t; rw [e]; exact ih
      · exact rest_go ih e
  have := this (m - n)
  rw [show n + (m - n) = m by omega] at this; exact this

/-- no more steps in the logging system after some time -/
theorem Last.steps_end {S : Setup} {σ : Nat → Deed} {R : Nat → St} (h : Last S σ R) : ∃ M, ∀ n, M ≤ n → ∀ t, σ n ≠ .step t := by
  obtain ⟨ts, hts⟩ := few_threads h.run.start
  have key : ∀ n, ∀ t, σ n = .step t → (∀ u, left ((R (n + 1)).prog.sys.pc u) ≤ left ((R n).prog.sys.pc u)) ∧ t ∈ ts ∧
      left ((R (n + 1)).prog.sys.pc t) < left ((R n).prog.sys.pc t) := by
    intro n t e
    have hd := h.run.next n
    rw [e] at hd
    obtain ⟨h1, h2, h3, h4, h5, hs⟩ := hd
    have hpc : (R (n + 1)).prog.sys = System.Conc.step (R n).prog.sys t := by rw [hs]; rfl
    have hlt := (step_self (R n).prog.sys t h4).1
    refine ⟨fun u => ?_, ?_, by rw [hpc]; exact hlt⟩
    · rw [hpc]
      by_cases hu : u = t
      · subst hu; omega
      · rw [step_pc_other _ _ _ hu]; exact Nat.le_refl _
    · refine Classical.byContradiction fun hn => ?_
      exact h4 (h.rest_on (hts t h1 hn) (Nat.zero_le n)).1
  obtain ⟨M, hM⟩ := dies_out (f := fun n => total ts fun u => left ((R n).prog.sys.pc u)) (P := fun n => ∃ t, σ n = .step t)
    (fun n => by
      by_cases hex : ∃ t, σ n = .step t
      · obtain ⟨t, e⟩ := hex; exact total_le (key n t e).1
      · have : (R (n + 1)).prog.sys = (R n).prog.sys := (h.run.next n).sys (h.nostart n) fun t e => hex ⟨t, e⟩
        rw [this]; exact Nat.le_refl _)
    (fun n ⟨t, e⟩ => total_lt (key n t e).1 (key n t e).2.1 (key n t e).2.2)
  exact ⟨M, fun n hn t e => hM n hn ⟨t, e⟩⟩

/-- and then nobody enters a sink any more after some time -/
theorem Last.enters_end {S : Setup} {σ : Nat → Deed} {R : Nat → St} (h : Last S σ R) (hs : ∀ n t, σ n ≠ .step t) : ∃ M, ∀ n, M ≤ n → ∀ t, σ n ≠ .enter t := by
  obtain ⟨ts, hts⟩ := few_threads h.run.start
  have key : ∀ n, ∀ t, σ n = .enter t → (∀ u, ((R (n + 1)).prog.todo u).length ≤ ((R n).prog.todo u).length) ∧ t ∈ ts ∧
      ((R (n + 1)).prog.todo t).length < ((R n).prog.todo t).length := by
    intro n t e
    have hd := h.run.next n
    rw [e] at hd
    obtain ⟨i, q, rest, call, h1, h2, h3, h4, h5, h6, hs⟩ := hd
    have htd : (R (n + 1)).prog.todo = upd (R n).prog.todo t rest := by rw [hs]
    refine ⟨fun u => ?_, ?_, by rw [htd, System.upd_same, h2]; simp⟩
    · rw [htd]
      by_cases hu : u = t
      · subst hu; rw [System.upd_same, h2]; simp
      · rw [System.upd_other _ _ hu]; exact Nat.le_refl _
    · refine Classical.byContradiction fun hn => ?_
      have := (h.rest_on (hts t h1 hn) (Nat.zero_le n)).2.1.1
      rw [h2] at this; cases this
  obtain ⟨M, hM⟩ := dies_out (f := fun n => total ts fun u => ((R n).prog.todo u).length) (P := fun n => ∃ t, σ n = .enter t)
    (fun n => by
      by_cases hex : ∃ t, σ n = .enter t
      · obtain ⟨t, e⟩ := hex; exact total_le (key n t e).1
      · rcases (h.run.next n).todo (h.nostart n) (hs n) with e | ⟨t, x, rest, e, _⟩
        · rw [e]; exact Nat.le_refl _
        · exact absurd ⟨t, e⟩ hex)
    (fun n ⟨t, e⟩ => total_lt (key n t e).1 (key n t e).2.1 (key n t e).2.2)
  exact ⟨M, fun n hn t e => hM n hn ⟨t, e⟩⟩

/-! ### one sink -/

theorem Last.leafRun {S : Setup} {σ : Nat → Deed} {R : Nat → St} (h : Last S σ R) (i : Nat) :
    ∃ σ', SinkFull.Endless (S.leaf i).conc (S.leaf i).opened σ' (fun n => (R n).prog.leaf i) ∧ (∀ n t ch, σ' n = .step t ch → σ n = .leaf i t ch) ∧
      (∀ n t k, σ' n = .call t k → σ n = .enter t) ∧ ∀ n t, σ' n ≠ .destroy t := by
  have h1 := fun n => (h.run.next n).atLeaf (h.nostart n) i
  obtain ⟨σ', hσ⟩ := Classical.skolem.1 h1
  refine ⟨σ', ⟨leaf_reach (reach_prog h.run.start) i, fun n => (hσ n).1, fun n t hr => ?_⟩, fun n => (hσ n).2.2.1, fun n => (hσ n).2.2.2.1, fun n => (hσ n).2.2.2.2⟩
  obtain ⟨m, ch, hm, he⟩ := h.run.inside n i t hr
  exact ⟨m, ch, hm, (hσ m).2.1 t ch he⟩

theorem Last.quiet_on {S : Setup} {σ : Nat → Deed} {R : Nat → St} (h : Last S σ R) (he : ∀ n t, σ n ≠ .enter t) {i : Nat} {t : Tid} {n : Nat}
    (hq : quiet (((R n).prog.leaf i).pc t)) {m : Nat} (hm : n ≤ m) : quiet (((R m).prog.leaf i).pc t) := by
  obtain ⟨σ', h1, _, h3, h4⟩ := h.leafRun i
  have : ∀ k, quiet (((R (n + k)).prog.leaf i).pc t) := by
    intro k
    induction k with
    | zero => exact hq
    | succ k ih =>
      have hd := h1.next (n + k)
      cases hc : σ' (n + k) with
      | call u c => exact absurd (h3 _ _ _ hc) (he _ _)
      | destroy u => exact absurd hc (h4 _ _)
      | rest => rw [hc] at hd; show quiet (((R (n + k + 1)).prog.leaf i).pc t); rw [show (R (n + k + 1)).prog.leaf i = _ from hd]; exact ih
      | step u ch =>
        rw [hc] at hd; show quiet (((R (n + k + 1)).prog.leaf i).pc t)
        rw [show (R (n + k + 1)).prog.leaf i = SinkFull.step _ _ u ch from hd]; exact leaf_quiet_step ih
  have := this (m - n)
  rw [show n + (m - n) = m by omega] at this; exact this

theorem Last.leaves_sink {S : Setup} (hS : ∀ i, 0 < (S.leaf i).conc.capacity) {σ : Nat → Deed} {R : Nat → St} (h : Last S σ R) (he : ∀ n t, σ n ≠ .enter t)
    (hl : NobodyStarves R) (hw : WaitsEnd R) (hv : StoresSeen σ) {t : Tid} (ht : t ≠ workerTid) :
    ∃ M, ∀ m, M ≤ m → ∀ i, quiet (((R m).prog.leaf i).pc t) := by
  obtain ⟨j, hj⟩ := inside_one (reach_prog h.run.start) ht
  have hout : ∃ m, quiet (((R m).prog.leaf j).pc t) := by
    obtain ⟨σ', h1, h2, h3, h4⟩ := h.leafRun j
    cases ho : ((R 0).prog.leaf j).owner with
    | none =>
      obtain ⟨m, _, hm⟩ := h1.all_return (hS j) (hl j) (N := 0) ho fun n _ u k e => he _ _ (h3 n u k e)
      exact ⟨m, .inl (hm t ht)⟩
    | some d =>
      by_cases hd : t = d
      · subst hd
        obtain ⟨K, hv⟩ := hv
        obtain ⟨m, _, hm⟩ := h1.destructor_ends (hS j) (hw j) ⟨K, fun n hn u ch e => hv n hn j u ch (h2 n u ch e)⟩ (N := 0) ho
        exact ⟨m, .inr hm⟩
      · exact ⟨0, .inl (others_idle (hS j) (leaf_reach (reach_prog h.run.start) j) ho ht hd)⟩
  obtain ⟨m, hm⟩ := hout
  refine ⟨m, fun k hk i => ?_⟩
  by_cases hij : i = j
  · subst hij; exact h.quiet_on he hm hk
  · exact h.quiet_on he (hj i hij) (Nat.zero_le k)

/-! ### the rest -/

theorem Last.to_rest {S : Setup} (hS : ∀ i, 0 < (S.leaf i).conc.capacity) {σ : Nat → Deed} {R : Nat → St} (h : Last S σ R)
    (hl : NobodyStarves R) (hw : WaitsEnd R) (hv : StoresSeen σ) : ∃ M, ∀ m, M ≤ m → ∀ t, t ≠ workerTid → AtRest (R m) t := by
  obtain ⟨M1, hM1⟩ := h.steps_end
  obtain ⟨M2, hM2⟩ := (h.shift M1).enters_end fun n t => hM1 _ (by omega) t
  obtain ⟨K, hK⟩ : ∃ K, K = M1 + M2 := ⟨_, rfl⟩
  have hstep : ∀ n, K ≤ n → ∀ t, σ n ≠ .step t := fun n hn => hM1 n (by omega)
  have hent : ∀ n, K ≤ n → ∀ t, σ n ≠ .enter t := fun n hn t => by
    have := hM2 (n - M1) (by omega) t
    rw [show M1 + (n - M1) = n by omega] at this; exact this
  have hsys : ∀ n, K ≤ n → (R n).prog.sys = (R K).prog.sys ∧ (R n).prog.todo = (R K).prog.todo := by
    intro n hn
    have : ∀ k, (R (K + k)).prog.sys = (R K).prog.sys ∧ (R (K + k)).prog.todo = (R K).prog.todo := by
      intro k
      induction k with
      | zero => exact ⟨rfl, rfl⟩
      | succ k ih =>
        refine ⟨((h.run.next (K + k)).sys (h.nostart _) (hstep _ (by omega))).trans ih.1, ?_⟩
        rcases (h.run.next (K + k)).todo (h.nostart _) (hstep _ (by omega)) with e | ⟨t, x, rest, e, _⟩
        · exact e.trans ih.2
        · exact absurd e (hent _ (by omega) t)
    have := this (n - K)
    rw [show K + (n - K) = n by omega] at this; exact this
  have hquiet : ∀ t, t ≠ workerTid → ∃ M, K ≤ M ∧ ∀ m, M ≤ m → ∀ i, quiet (((R m).prog.leaf i).pc t) := by
    intro t ht
    obtain ⟨M, hM⟩ := (h.shift K).leaves_sink hS (fun n t => hent _ (by omega) t) (fun i n t hp => by
        obtain ⟨m, h1, h2⟩ := hl i (K + n) t hp
        exact ⟨m - K, by omega, by dsimp only; rw [show K + (m - K) = m by omega]; exact h2⟩)
      (fun i n hp => by
        obtain ⟨m, h1, h2⟩ := hw i (K + n) hp
        exact ⟨m - K, by omega, by dsimp only; rw [show K + (m - K) = m by omega]; exact h2⟩)
      (by obtain ⟨N, hv⟩ := hv; exact ⟨N, fun n hn => hv (K + n) (by omega)⟩) ht
    refine ⟨K + M, by omega, fun m hm i => ?_⟩
    have := hM (m - K) (by omega) i
    rw [show K + (m - K) = m by omega] at this; exact this
  -- nobody has anything to enter
  have htodo : ∀ t, t ≠ workerTid → (R K).prog.todo t = [] := by
    intro t ht
    refine Classical.byContradiction fun hne => ?_
    obtain ⟨M, hKM, hM⟩ := hquiet t ht
    cases hd : (R K).prog.todo t with
    | nil => exact hne hd
    | cons x rest =>
      obtain ⟨i, q⟩ := x
      obtain ⟨call, hs⟩ := serves_some (S.leaf i) q
      obtain ⟨m, hm, e⟩ := h.run.fair M (.enter t) rfl fun m hm => by
        have hdm : (R m).prog.todo t = (i, q) :: rest := by rw [(hsys m (by omega)).2]; exact hd
        have ho : ((R m).prog.leaf i).owner = none := h.kept_at m t i (.inl ⟨(i, q), by rw [hdm]; exact List.mem_cons_self, rfl⟩)
        have hi : ((R m).prog.leaf i).pc t = .idle := (hM m hm i).resolve_right (owner_not_dead (hS i) (leaf_reach (reach_prog (h.run.reach m)) i) ho ht)
        exact ⟨_, i, q, rest, call, ht, hdm, hM m hm, hi, ho, hs, rfl⟩
      exact hent m (by omega) t e
  have hfree : ∀ t, t ≠ workerTid → ∃ M, K ≤ M ∧ ∀ m, M ≤ m → Free (R m).prog t := by
    intro t ht
    obtain ⟨M, h1, h2⟩ := hquiet t ht
    exact ⟨M, h1, fun m hm => ⟨by rw [(hsys m (by omega)).2]; exact htodo t ht, h2 m hm⟩⟩
  -- the mutex is released
  have hbusy : ∃ M, K ≤ M ∧ ∀ m, M ≤ m → (R m).busy = none := by
    have stay : ∀ M, K ≤ M → (R M).busy = none → ∀ m, M ≤ m → (R m).busy = none := by
      intro M hM hb m hm
      have : ∀ k, (R (M + k)).busy = none := by
        intro k
        induction k with
        | zero => exact hb
        | succ k ih =>
          rcases (h.run.next (M + k)).busy (h.nostart _) (hstep _ (by omega)) with e | e
          · exact e
          · exact e.1.trans ih
      have := this (m - M)
      rw [show M + (m - M) = m by omega] at this; exact this
    cases hb : (R K).busy with
    | none => exact ⟨K, Nat.le_refl _, stay K (Nat.le_refl _) hb⟩
    | some u =>
      have hu : u ≠ workerTid := fun e => (holders (h.run.reach K)).1 (e ▸ hb)
      by_cases hex : ∃ M, K ≤ M ∧ (R M).busy = none
      · obtain ⟨M, h1, h2⟩ := hex; exact ⟨M, h1, stay M h1 h2⟩
      · exfalso
        have hall : ∀ k, (R (K + k)).busy = some u := by
          intro k
          induction k with
          | zero => exact hb
          | succ k ih =>
            rcases (h.run.next (K + k)).busy (h.nostart _) (hstep _ (by omega)) with e | e
            · exact absurd ⟨K + k + 1, by omega, e⟩ hex
            · exact e.1.trans ih
        obtain ⟨M, h1, h2⟩ := hfree u hu
        obtain ⟨m, hm, e⟩ := h.run.fair M (.unlock u) rfl fun m hm => by
          have := hall (m - K)
          rw [show K + (m - K) = m by omega] at this
          exact ⟨_, h2 m hm, this, rfl⟩
        have hd := h.run.next m
        rw [e] at hd
        exact hex ⟨m + 1, by omega, by rw [hd.2.2]⟩
  obtain ⟨M3, hK3, hbusy⟩ := hbusy
  have hidle_of : ∀ t, t ≠ workerTid → (∀ m, M3 ≤ m → CanLock (R m) t) → (R K).prog.sys.pc t = .idle := by
    intro t ht hc
    refine Classical.byContradiction fun hne => ?_
    obtain ⟨M, h1, h2⟩ := hfree t ht
    obtain ⟨m, hm, e⟩ := h.run.fair (M + M3) (.step t) rfl fun m hm =>
      ⟨_, ht, h2 m (by omega), by rw [hbusy m (by omega)]; exact (fun e => by cases e), by rw [(hsys m (by omega)).1]; exact hne, fun _ => hc m (by omega), rfl⟩
    exact hstep m (by omega) t e
  -- configure is over
  have hconf : ∃ M, M3 ≤ M ∧ ∀ m, M ≤ m → (R m).conf = none := by
    have stay : ∀ M, (R M).conf = none → ∀ m, M ≤ m → (R m).conf = none := by
      intro M hb m hm
      have : ∀ k, (R (M + k)).conf = none := by
        intro k
        induction k with
        | zero => exact hb
        | succ k ih =>
          rcases (h.run.next (M + k)).conf (h.nostart _) with e | e
          · exact e
          · exact e.1.trans ih
      have := this (m - M)
      rw [show M + (m - M) = m by omega] at this; exact this
    cases hb : (R M3).conf with
    | none => exact ⟨M3, Nat.le_refl _, stay M3 hb⟩
    | some u =>
      have hu : u ≠ workerTid := fun e => (holders (h.run.reach M3)).2 (e ▸ hb)
      by_cases hex : ∃ M, M3 ≤ M ∧ (R M).conf = none
      · obtain ⟨M, h1, h2⟩ := hex; exact ⟨M, h1, stay M h2⟩
      · exfalso
        have hall : ∀ k, (R (M3 + k)).conf = some u := by
          intro k
          induction k with
          | zero => exact hb
          | succ k ih =>
            rcases (h.run.next (M3 + k)).conf (h.nostart _) with e | e
            · exact absurd ⟨M3 + k + 1, by omega, e⟩ hex
            · exact e.1.trans ih
        have hall' : ∀ m, M3 ≤ m → (R m).conf = some u := fun m hm => by
          have := hall (m - M3)
          rw [show M3 + (m - M3) = m by omega] at this; exact this
        have hi := hidle_of u hu fun m hm => ⟨hbusy m hm, .inr (hall' m hm)⟩
        obtain ⟨M, h1, h2⟩ := hfree u hu
        obtain ⟨m, hm, e⟩ := h.run.fair (M + M3) (.configured u) rfl fun m hm =>
          ⟨_, h2 m (by omega), by rw [(hsys m (by omega)).1]; exact hi, hall' m (by omega), by rw [hbusy m (by omega)]; exact (fun e => by cases e), rfl⟩
        have hd := h.run.next m
        rw [e] at hd
        exact hex ⟨m + 1, by omega, by rw [hd.2.2.2.2]⟩
  obtain ⟨M4, hK4, hconf⟩ := hconf
  have hidle : ∀ t, t ≠ workerTid → (R K).prog.sys.pc t = .idle := by
    intro t ht
    refine Classical.byContradiction fun hne => ?_
    obtain ⟨M, h1, h2⟩ := hfree t ht
    obtain ⟨m, hm, e⟩ := h.run.fair (M + M4) (.step t) rfl fun m hm =>
      ⟨_, ht, h2 m (by omega), by rw [hbusy m (by omega)]; exact (fun e => by cases e), by rw [(hsys m (by omega)).1]; exact hne,
        fun _ => ⟨hbusy m (by omega), .inl (hconf m (by omega))⟩, rfl⟩
    exact hstep m (by omega) t e
  have hone : ∀ t, t ≠ workerTid → ∃ M, ∀ m, M ≤ m → AtRest (R m) t := by
    intro t ht
    obtain ⟨M, h1, h2⟩ := hfree t ht
    exact ⟨M + M4, fun m hm => ⟨by rw [(hsys m (by omega)).1]; exact hidle t ht, h2 m (by omega), by rw [hbusy m (by omega)]; exact (fun e => by cases e),
      by rw [hconf m (by omega)]; exact (fun e => by cases e)⟩⟩
  obtain ⟨ts, hts⟩ := few_threads h.run.start
  have hlist : ∀ l : List Tid, ∃ M, ∀ m, M ≤ m → ∀ t, t ≠ workerTid → t ∈ l → AtRest (R m) t := by
    intro l
    induction l with
    | nil => exact ⟨0, fun m _ t _ hm => by cases hm⟩
    | cons u l ih =>
      obtain ⟨M, hM⟩ := ih
      by_cases hu : u = workerTid
      · refine ⟨M, fun m hm t ht hmem => ?_⟩
        rcases List.mem_cons.1 hmem with e | e
        · exact absurd (e.trans hu) ht
        · exact hM m hm t ht e
      · obtain ⟨M', hM'⟩ := hone u hu
        refine ⟨M + M', fun m hm t ht hmem => ?_⟩
        rcases List.mem_cons.1 hmem with e | e
        · rw [e]; exact hM' m (by omega)
        · exact hM m (by omega) t ht e
  obtain ⟨M, hM⟩ := hlist ts
  refine ⟨M, fun m hm t ht => ?_⟩
  by_cases hmem : t ∈ ts
  · exact hM m hm t ht hmem
  · exact h.rest_on (hts t ht hmem) (Nat.zero_le m)

end Lock
end Many
end Soralog
