import Verif.Proofs.ManyFairLog
/-!
# Proofs: every moment of every execution can be continued to an endless one that starts no more calls and keeps all the assumptions
-/
namespace Soralog
namespace Many
namespace Lock
open Spec
open SinkConc (workerTid calmCh)

/-! ### all numbers, each again and again -/

def turn : Nat → Nat × Nat
  | 0 => (0, 0)
  | n + 1 => if (turn n).1 < (turn n).2 then ((turn n).1 + 1, (turn n).2) else (0, (turn n).2 + 1)

theorem turn_walk {n b : Nat} (h : turn n = (0, b)) : ∀ k, k ≤ b → turn (n + k) = (k, b) := by
  intro k
  induction k with
  | zero => intro _; exact h
  | succ k ih =>
    intro hk
    have e := ih (by omega)
    show (if (turn (n + k)).1 < (turn (n + k)).2 then ((turn (n + k)).1 + 1, (turn (n + k)).2) else (0, (turn (n + k)).2 + 1)) = _
    rw [e, if_pos (by show k < b; omega)]

theorem turn_row (b : Nat) : ∃ n, b ≤ n ∧ turn n = (0, b) := by
  induction b with
  | zero => exact ⟨0, Nat.le_refl _, rfl⟩
  | succ b ih =>
    obtain ⟨n, h1, h2⟩ := ih
    refine ⟨n + b + 1, by omega, ?_⟩
    show (if (turn (n + b)).1 < (turn (n + b)).2 then ((turn (n + b)).1 + 1, (turn (n + b)).2) else (0, (turn (n + b)).2 + 1)) = _
    rw [turn_walk h2 b (Nat.le_refl _), if_neg (by show ¬ b < b; omega)]

theorem turn_again (n i : Nat) : ∃ m, n ≤ m ∧ (turn m).1 = i := by
  obtain ⟨m, h1, h2⟩ := turn_row (n + i)
  exact ⟨m + i, by omega, by rw [turn_walk h2 i (by omega)]⟩

/-! ### the workers alone -/

def idling (S : Setup) (s : St) : Nat → St
  | 0 => s
  | n + 1 => { idling S s n with prog := { (idling S s n).prog with
      leaf := upd (idling S s n).prog.leaf (turn n).1 (SinkFull.step (S.leaf (turn n).1).conc ((idling S s n).prog.leaf (turn n).1) workerTid calmCh) } }

def idleDeed (n : Nat) : Deed := .leaf (turn n).1 workerTid calmCh

/-- what the statements about a program that starts no more calls ask of an endless execution -/
structure Good (S : Setup) (σ : Nat → Deed) (R : Nat → St) : Prop where
  run : Endless S σ R
  lock : NobodyStarves R
  waits : WaitsEnd R
  seen : StoresSeen σ
  quiet : NoMoreCalls σ 0

theorem idling_does (S : Setup) (s : St) (n : Nat) : Does S (idling S s n) (idleDeed n) (idling S s (n + 1)) := rfl

theorem idling_reach {S : Setup} {s : St} (hr : Reach S s) (n : Nat) : Reach S (idling S s n) := by
  induction n with
  | zero => exact hr
  | succ n ih => exact (idling_does S s n).reach ih

theorem idling_rest {S : Setup} {s : St} (ha : ∀ t, t ≠ workerTid → AtRest s t) (n : Nat) {t : Tid} (ht : t ≠ workerTid) : AtRest (idling S s n) t := by
  induction n with
  | zero => exact ha t ht
  | succ n ih =>
    rcases (idling_does S s n).go (fun e => by cases e) with e | e
    · rw [e]; exact ih
    · exact rest_go ih e

theorem idling_endless {S : Setup} {s : St} (hr : Reach S s) (ha : ∀ t, t ≠ workerTid → AtRest s t) : Endless S idleDeed (idling S s) := by
  refine ⟨hr, idling_does S s, fun n d hd hp => ?_, fun n i t hrun => ?_⟩
  · exfalso
    obtain ⟨s', hs⟩ := hp n (Nat.le_refl _)
    cases d with
    | step t => exact hs.2.2.2.1 (idling_rest ha n hs.1).1
    | unlock t =>
      by_cases ht : t = workerTid
      · exact (holders (idling_reach hr n)).1 (ht ▸ hs.2.1)
      · exact (idling_rest ha n ht).2.2.1 hs.2.1
    | configured t =>
      by_cases ht : t = workerTid
      · exact (holders (idling_reach hr n)).2 (ht ▸ hs.2.2.1)
      · exact (idling_rest ha n ht).2.2.2 hs.2.2.1
    | enter t =>
      obtain ⟨i, q, rest, call, h1, h2, _⟩ := hs
      rw [(idling_rest ha n h1).2.1.1] at h2; cases h2
    | _ => cases hd
  · by_cases ht : t = workerTid
    · obtain ⟨m, h1, h2⟩ := turn_again n i
      exact ⟨m, calmCh, h1, by show Deed.leaf _ _ _ = _; rw [h2, ht]⟩
    · exfalso
      rcases (idling_rest ha n ht).2.1.2 i with e | e <;> rw [e] at hrun
      · exact hrun.1 rfl
      · exact hrun.2.2 rfl

theorem idling_good {S : Setup} (hS : ∀ i, 0 < (S.leaf i).conc.capacity) {s : St} (hr : Reach S s) (hk : SinksKept S s.prog)
    (ha : ∀ t, t ≠ workerTid → AtRest s t) : Good S idleDeed (idling S s) := by
  have hE := idling_endless hr ha
  have hlast : Last S idleDeed (idling S s) := ⟨hE, (fun n e => by cases e), hk⟩
  refine ⟨hE, fun i => ?_, fun i n hn => ?_, ⟨0, fun n _ i t ch e => ?_⟩, fun n _ e => by cases e⟩
  · obtain ⟨σ', h1, _⟩ := hlast.leafRun i
    refine SinkFull.alone_lock h1 (hS i) (t := workerTid) fun n u hu => ?_
    obtain ⟨a, _, _, base, hR⟩ := SinkFull.rel_refines (hS i) (h1.reach n)
    refine SinkFull.not_inQueue (hR.pcs u) ?_
    rcases (idling_rest (S := S) ha n hu).2.1.2 i with e | e <;> (rw [e]; rfl)
  · dsimp only at hn ⊢
    obtain ⟨m, h1, h2⟩ := turn_again n i
    by_cases hm : ((idling S s m).prog.leaf i).pc workerTid = .wWait
    · refine ⟨m + 1, by omega, ?_⟩
      have : ((idling S s (m + 1)).prog.leaf i) = SinkFull.step (S.leaf i).conc ((idling S s m).prog.leaf i) workerTid calmCh := by
        show upd _ (turn m).1 _ i = _
        rw [h2, System.upd_same]
      rw [this]
      unfold SinkFull.step; simp only [hm]
      rw [if_pos (by rfl)]
      simp [SinkFull.setPc, upd]
    · exact ⟨m, h1, hm⟩
  · cases e; rfl

/-! ### one more step before -/

theorem Go.deed {S : Setup} {s s' : St} (h : Go S s s') : ∃ d, d ≠ .start ∧ Does S s d s' := by
  cases h with
  | step t h1 h2 h3 h4 h5 => exact ⟨.step t, (fun e => by cases e), h1, h2, h3, h4, h5, rfl⟩
  | unlock t h1 h2 => exact ⟨.unlock t, (fun e => by cases e), h1, h2, rfl⟩
  | configured t h1 h2 h3 h4 => exact ⟨.configured t, (fun e => by cases e), h1, h2, h3, h4, rfl⟩
  | enter t i q rest call h1 h2 h3 h4 h5 h6 => exact ⟨.enter t, (fun e => by cases e), i, q, rest, call, h1, h2, h3, h4, h5, h6, rfl⟩
  | leaf i t ch => exact ⟨.leaf i t ch, (fun e => by cases e), rfl⟩

def before {α : Type} (a : α) (f : Nat → α) : Nat → α
  | 0 => a
  | n + 1 => f n

theorem Good.before {S : Setup} {σ : Nat → Deed} {R : Nat → St} (h : Good S σ R) {s : St} {d : Deed} (hr : Reach S s) (hd : d ≠ .start)
    (hs : Does S s d (R 0)) : Good S (before d σ) (before s R) := by
  refine ⟨⟨hr, fun n => ?_, fun n e he hp => ?_, fun n i t hrun => ?_⟩, fun i n t hp => ?_, fun i n hp => ?_, ?_, fun n _ e => ?_⟩
  · cases n with
    | zero => exact hs
    | succ n => exact h.run.next n
  · obtain ⟨m, h1, h2⟩ := h.run.fair n e he fun m hm => hp (m + 1) (by omega)
    exact ⟨m + 1, by omega, h2⟩
  · cases n with
    | succ n =>
      obtain ⟨m, ch, h1, h2⟩ := h.run.inside n i t hrun
      exact ⟨m + 1, ch, by omega, h2⟩
    | zero =>
      obtain ⟨d', h1, h2, h3, h4, h5⟩ := hs.atLeaf hd i
      by_cases hex : ∃ ch, d = .leaf i t ch
      · obtain ⟨ch, e⟩ := hex; exact ⟨0, ch, Nat.le_refl _, e⟩
      · have hsame : ((R 0).prog.leaf i).pc t = (s.prog.leaf i).pc t := by
          cases d' with
          | rest => rw [show (R 0).prog.leaf i = _ from h1]
          | destroy u => exact absurd rfl (h5 u)
          | call u k =>
            obtain ⟨c1, c2, c3, c4⟩ := h1
            rw [c4]
            by_cases hu : t = u
            · subst hu; exact absurd c2 hrun.1
            · show upd _ _ _ _ = _; rw [System.upd_other _ _ hu]
          | step u ch =>
            rw [show (R 0).prog.leaf i = _ from h1]
            refine leaf_step_pc _ _ _ _ _ fun hu => ?_
            subst hu; exact hex ⟨ch, h3 _ _ rfl⟩
        obtain ⟨m, ch, h6, h7⟩ := h.run.inside 0 i t (by rw [hsame]; exact hrun)
        exact ⟨m + 1, ch, by omega, h7⟩
  · cases n with
    | succ n =>
      obtain ⟨m, h1, h2⟩ := h.lock i n t hp
      exact ⟨m + 1, by omega, h2⟩
    | zero =>
      by_cases hq : SinkFull.AtLock (((R 0).prog.leaf i).ring.pc t)
      · obtain ⟨m, h1, h2⟩ := h.lock i 0 t hq
        exact ⟨m + 1, by omega, h2⟩
      · exact ⟨1, by omega, hq⟩
  · cases n with
    | succ n =>
      obtain ⟨m, h1, h2⟩ := h.waits i n hp
      exact ⟨m + 1, by omega, h2⟩
    | zero =>
      by_cases hq : ((R 0).prog.leaf i).pc workerTid = .wWait
      · obtain ⟨m, h1, h2⟩ := h.waits i 0 hq
        exact ⟨m + 1, by omega, h2⟩
      · exact ⟨1, by omega, hq⟩
  · obtain ⟨N, hN⟩ := h.seen
    refine ⟨N + 1, fun n hn i t ch e => ?_⟩
    cases n with
    | zero => omega
    | succ n => exact hN n (by omega) i t ch e
  · cases n with
    | zero => exact hd e
    | succ n => exact h.quiet n (Nat.zero_le _) e

theorem goes_good {S : Setup} {s s' : St} (hg : Goes S s s') (hr : Reach S s) :
    (∃ σ R, Good S σ R ∧ R 0 = s') → ∃ σ R, Good S σ R ∧ R 0 = s := by
  induction hg with
  | refl => exact id
  | @more s0 s1 s2 h _ ih =>
    intro hx
    obtain ⟨σ, R, h1, h2⟩ := ih (.next hr (.go h)) hx
    obtain ⟨d, h3, h4⟩ := h.deed
    rw [← h2] at h4
    exact ⟨_, _, h1.before hr h3 h4, rfl⟩

theorem good_exists {S : Setup} (hS : ∀ i, 0 < (S.leaf i).conc.capacity) {s : St} (hr : Reach S s) (hk : SinksKept S s.prog) :
    ∃ σ R, Good S σ R ∧ R 0 = s := by
  obtain ⟨s', h1, h2⟩ := all_end hS hr hk
  have h3 : Reach S s' ∧ SinksKept S s'.prog := by
    clear h2
    induction h1 with
    | refl => exact ⟨hr, hk⟩
    | more h _ ih => exact ih (.next hr (.go h)) (kept_go hk h)
  exact goes_good h1 hr ⟨_, _, idling_good hS h3.1 h3.2 h2, rfl⟩

end Lock
end Many
end Soralog
