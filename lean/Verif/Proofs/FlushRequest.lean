import Verif.Spec.FlushRequest
import Verif.Proofs.SinkFullDeliver
import Verif.Props.SinkFull
/-! # Requested flushes: when they are served, and when they are not -/
namespace Soralog
namespace SinkFull
open SinkConc (Cfg Ret Ch workerTid)

/-- the events handed over only grow -/
theorem does_written {c : Cfg} {s s' : St} {d : Deed} (h : Does c s d s') : s.written <+: s'.written := by
  cases d with
  | rest => rw [show s' = s from h]; exact List.prefix_refl _
  | call t k => obtain ⟨_, _, _, h4⟩ := h; rw [h4]; exact List.prefix_refl _
  | destroy t => obtain ⟨_, _, _, h4⟩ := h; rw [h4]; exact List.prefix_refl _
  | step t ch =>
    rw [show s' = step c s t ch from h]
    unfold step
    (repeat' split) <;> (try dsimp only) <;> (repeat' split)
    all_goals first
      | exact List.prefix_refl _
      | exact List.prefix_append _ _

theorem Endless.written_mono {c : Cfg} {o : Bool} {σ : Nat → Deed} {R : Nat → St} (h : Endless c o σ R) {n m : Nat} (hm : n ≤ m) :
    (R n).written <+: (R m).written := by
  obtain ⟨d, rfl⟩ : ∃ d, m = n + d := ⟨m - n, by omega⟩
  clear hm
  induction d with
  | zero => exact List.prefix_refl _
  | succ d ih => exact ih.trans (does_written (h.next (n + d)))

/-- only a thread that has found the request takes it away -/
theorem does_cleared {c : Cfg} {o : Bool} {s s' : St} {d : Deed} (hcap : 0 < c.capacity) (hr : Reach c o s) (hk : c.isSyslog = false)
    (h : Does c s d s') (h1 : s.needFlush = true) (h2 : s'.needFlush = false) :
    ∃ t k, s'.pc t = .sync k ∧ s.written = s'.written := by
  cases d with
  | rest => rw [show s' = s from h, h1] at h2; cases h2
  | call t k => obtain ⟨_, _, _, h4⟩ := h; rw [h4, show (setPc s t (startPC k)).needFlush = s.needFlush from rfl, h1] at h2; cases h2
  | destroy t => obtain ⟨_, _, _, h4⟩ := h; rw [h4] at h2; rw [show (setPc { s with owner := some t } t PC.dStart).needFlush = s.needFlush from rfl, h1] at h2; cases h2
  | step t ch =>
    rw [show s' = step c s t ch from h] at h2 ⊢
    cases hp : s.pc t
    case casFlush k =>
      refine ⟨t, k, ?_⟩
      unfold step at h2 ⊢; simp only [hp] at h2 ⊢
      split
      · simp [setPc, upd]
      · rename_i h5; rw [if_neg h5] at h2; rw [show (setPc s t (PC.casRotate k)).needFlush = s.needFlush from rfl, h1] at h2; cases h2
    case sClear k =>
      exfalso
      obtain ⟨a, hra, hrel⟩ := rel_refines hcap hr
      have := rel_simple_pc hrel (t := t) (by rw [hp]; rfl)
      have h5 := SinkConc.fits_reach hra t
      rw [this] at h5
      rw [show c.isSyslog = true from h5] at hk; cases hk
    case write k e => exfalso; cases e <;> (unfold step at h2; simp only [hp] at h2; (repeat' split at h2) <;> (simp [setPc, h1] at h2))
    all_goals
      exfalso
      unfold step at h2; simp only [hp] at h2
      (repeat' split at h2) <;> (simp [setPc, h1] at h2)

/-- a thread that has taken the request serves it -/
theorem Endless.serves {c : Cfg} {σ : Nat → Deed} {R : Nat → St} (h : Endless c true σ R) (hcap : 0 < c.capacity) (hk : c.isSyslog = false)
    {n : Nat} {t : Tid} {k : Ret} (hp : (R n).pc t = .sync k) : ∃ m, n ≤ m ∧ (R n).written.flatMap c.render <+: inTheSystem (R m) := by
  obtain ⟨m, ch, h1, _, h3, h4, _⟩ := h.first (n := n) (t := t) (by rw [hp]; exact ⟨by simp, by simp, by simp⟩)
  rw [hp] at h4
  refine ⟨m + 1, by omega, ?_⟩
  have h5 := (C72_exactly_once_in_order c hcap _ (h.reach (m + 1))).2.2 hk
  have h6 : (R (m + 1)).sbuf = [] := by rw [h3]; unfold step; simp only [h4]; simp [setPc]
  rw [h6, List.append_nil] at h5
  unfold inTheSystem
  rw [h5]
  obtain ⟨w, hw⟩ := h.written_mono (n := n) (m := m + 1) (by omega)
  rw [← hw, List.flatMap_append]; exact List.prefix_append _ _

/-- a request that is gone has been served -/
theorem Endless.gone_served {c : Cfg} {σ : Nat → Deed} {R : Nat → St} (h : Endless c true σ R) (hcap : 0 < c.capacity) (hk : c.isSyslog = false)
    {n : Nat} (hn : (R n).needFlush = true) {m : Nat} (hm : n ≤ m) (hm' : (R m).needFlush = false) :
    ∃ m, n ≤ m ∧ (R n).written.flatMap c.render <+: inTheSystem (R m) := by
  obtain ⟨d, rfl⟩ : ∃ d, m = n + d := ⟨m - n, by omega⟩
  clear hm
  induction d with
  | zero => rw [show n + 0 = n from rfl, hn] at hm'; cases hm'
  | succ d ih =>
    cases e : (R (n + d)).needFlush
    · exact ih e
    · obtain ⟨t, k, h1, h2⟩ := does_cleared hcap (h.reach (n + d)) hk (h.next (n + d)) e hm'
      obtain ⟨m, h3, h4⟩ := h.serves hcap hk h1
      refine ⟨m, by omega, ?_⟩
      obtain ⟨w, hw⟩ := h.written_mono (n := n) (m := n + (d + 1)) (by omega)
      refine List.IsPrefix.trans ?_ h4
      show _ <+: (R (n + d + 1)).written.flatMap c.render
      rw [show n + d + 1 = n + (d + 1) from rfl, ← hw, List.flatMap_append]; exact List.prefix_append _ _

/-- who hands an event over looks for a request next -/
theorem does_handed {c : Cfg} {s s' : St} {d : Deed} (hk : ∀ t, ∀ k, s.pc t ≠ .sCall k) (h : Does c s d s') (hw : s.written ≠ s'.written) : ∃ t k, s'.pc t = .casFlush k := by
  cases d with
  | rest => rw [show s' = s from h] at hw; exact absurd rfl hw
  | call t k => obtain ⟨_, _, _, h4⟩ := h; rw [h4] at hw; exact absurd rfl hw
  | destroy t => obtain ⟨_, _, _, h4⟩ := h; rw [h4] at hw; exact absurd rfl hw
  | step t ch =>
    rw [show s' = step c s t ch from h] at hw ⊢
    cases hp : s.pc t
    case write k e =>
      refine ⟨t, k, ?_⟩
      cases e with
      | none => unfold step at hw; simp only [hp] at hw; exact absurd rfl hw
      | some e => unfold step; simp only [hp]; split <;> simp [setPc, upd]
    case sCall k => exact absurd hp (hk t k)
    all_goals
      exfalso
      refine hw ?_
      unfold step; simp only [hp]
      try ((repeat' split) <;> rfl)

theorem no_syslog_call {c : Cfg} {o : Bool} {s : St} (hcap : 0 < c.capacity) (hr : Reach c o s) (hk : c.isSyslog = false) (t : Tid) (k : Ret) :
    s.pc t ≠ .sCall k := by
  intro hp
  obtain ⟨a, hra, _, base, hR⟩ := rel_refines hcap hr
  have := hR.pcs t
  rw [hp] at this
  obtain ⟨_, r, _, _, h3⟩ := this
  have h5 := SinkConc.fits_reach hra t
  rw [h3] at h5
  rw [show c.isSyslog = true from h5] at hk; cases hk

/-- A request that is pending when something is still to be handed over is served. -/
theorem Endless.request_served {c : Cfg} {σ : Nat → Deed} {R : Nat → St} (h : Endless c true σ R) (hcap : 0 < c.capacity)
    (hl : NobodyStarves R) (hl0 : c.latency0 = false) (hw : WaitsEnd R) (hc : NoSpuriousFailure σ) (hk : c.isSyslog = false)
    {n : Nat} (hn : (R n).needFlush = true) {j : Nat} (hj : n ≤ j) (hq : (R j).written ≠ accepted (R j)) :
    ∃ m, n ≤ m ∧ (R n).written.flatMap c.render <+: inTheSystem (R m) := by
  obtain ⟨m, h1, h2⟩ := h.worker_delivers hcap hl hl0 hw j
  have hlt : (R j).written.length < (R m).written.length := by
    have h3 := (C72_exactly_once_in_order c hcap _ (h.reach j)).1
    have h4 := h2.length_le
    have h5 : (R j).written.length < (accepted (R j)).length := by
      refine Nat.lt_of_le_of_ne h3.length_le fun e => hq ?_
      exact h3.eq_of_length e
    unfold accepted at h5; omega
  have hstep : ∃ i, j ≤ i ∧ (R i).written ≠ (R (i + 1)).written := by
    refine Classical.byContradiction fun hne => ?_
    have : ∀ d, (R (j + d)).written = (R j).written := by
      intro d
      induction d with
      | zero => rfl
      | succ d ih =>
        rw [← ih]
        exact (Classical.byContradiction fun e => hne ⟨j + d, by omega, e⟩ : (R (j + d)).written = (R (j + d + 1)).written).symm
    have := this (m - j)
    rw [show j + (m - j) = m by omega] at this
    rw [this] at hlt; omega
  obtain ⟨i, hi, hne⟩ := hstep
  obtain ⟨t, k, hp⟩ := does_handed (no_syslog_call hcap (h.reach i) hk) (h.next i) hne
  obtain ⟨m', ch, h6, h7, h8, h9, _⟩ := h.first (n := i + 1) (t := t) (by rw [hp]; exact ⟨by simp, by simp, by simp⟩)
  rw [hp] at h9
  cases e : (R m').needFlush
  · exact h.gone_served hcap hk hn (m := m') (by omega) e
  · refine h.gone_served hcap hk hn (m := m' + 1) (by omega) ?_
    rw [h8]; unfold step; simp only [h9]; rw [e, hc m' t ch h7]; rfl

/-! ### when nothing is queued -/

/-- points of threads that only flush, while there is nothing to take -/
def emptyHanded : PC → Bool
  | .idle | .async | .wWait | .wCheck | .wSize | .sizeIn | .wExit => true
  | .enter k | .get k | .getIn k | .write k none | .casRotate k | .leave k =>
    match k with
    | .done | .worker => true
    | _ => false
  | _ => false

structure Drained (c : Cfg) (s0 s : St) : Prop where
  reach : Reach c true s
  all : s.written = accepted s
  rotate : s.needRotate = false
  owner : s.owner = none
  pcs : ∀ t, emptyHanded (s.pc t) = true
  same : s.gens = s0.gens ∧ s.dev = s0.dev ∧ s.written = s0.written

/-- who has taken something: then not everything is written -/
theorem drained_no_take {c : Cfg} (hcap : 0 < c.capacity) {s : St} (hr : Reach c true s) (ha : s.written = accepted s) {t : Tid} {k : Ret} :
    s.pc t ≠ .uncount k := by
  intro hp
  obtain ⟨a, hra, hrel⟩ := rel_refines hcap hr
  obtain ⟨hput, hwr⟩ := rel_log hrel
  obtain ⟨_, base, hR⟩ := hrel
  have := hR.pcs t
  rw [hp] at this
  obtain ⟨_, r, _, _, h3⟩ := this
  have h4 := (SinkConc.flow_reach hra).body t (by rw [h3]; rfl)
  rw [h3] at h4
  have h5 := congrArg List.length h4
  rw [List.length_take, List.length_append, hwr, ha] at h5
  have : a.put.length = (accepted s).length := by rw [hput]; rfl
  simp [SinkConc.PC.flight] at h5
  omega

theorem newPuts_get {rp : Ring.PC Event} (h : Ring.phase rp = .called .get) : newPuts rp = [] := by
  cases rp <;> first | rfl | cases h
theorem newPuts_size {rp : Ring.PC Event} (h : Ring.phase rp = .called .size) : newPuts rp = [] := by
  cases rp <;> first | rfl | cases h

theorem drained_accepted {c : Cfg} (hcap : 0 < c.capacity) {s : St} (hr : Reach c true s) (t : Tid) (ch : Ch) (hp : emptyHanded (s.pc t) = true) :
    accepted (step c s t ch) = accepted s := by
  obtain ⟨a, hra, _, base, hR⟩ := rel_refines hcap hr
  have hpc := hR.pcs t
  have htick := tick_puts hR.inv t
  cases hq : s.pc t <;> rw [hq] at hp hpc <;> try (cases hp; done)
  case getIn k =>
    have : newPuts (s.ring.pc t) = [] := by
      obtain ⟨_, ⟨h1, _⟩ | ⟨h1, _⟩ | ⟨_, _, h1, _⟩⟩ := hpc
      · exact newPuts_get h1
      · rw [h1]; rfl
      · rw [h1]; rfl
    rw [this, List.append_nil] at htick
    unfold step accepted; simp only [hq]; (repeat' split) <;> exact htick
  case sizeIn =>
    have : newPuts (s.ring.pc t) = [] := by
      obtain ⟨_, ⟨h1, _⟩ | ⟨_, h1, _⟩⟩ := hpc
      · exact newPuts_size h1
      · rw [h1]; rfl
    rw [this, List.append_nil] at htick
    unfold step accepted; simp only [hq]; (repeat' split) <;> exact htick
  case get k => unfold step accepted; simp only [hq]; exact call_log _ _ _
  case wSize => unfold step accepted; simp only [hq]; exact call_log _ _ _
  case write k e => cases e <;> first | (cases hp; done) | (unfold step accepted; simp only [hq]; rfl)
  all_goals (unfold step accepted; simp only [hq]; try ((repeat' split) <;> rfl))

theorem emptyHanded_upd {s : St} {t : Tid} {p : PC} (h : ∀ u, emptyHanded (s.pc u) = true) (hp : emptyHanded p = true) (u : Tid) :
    emptyHanded (upd s.pc t p u) = true := by
  unfold upd; split
  · exact hp
  · exact h u

theorem Drained.step {c : Cfg} (hcap : 0 < c.capacity) (hk : c.isSyslog = false) {s0 s : St} (h : Drained c s0 s) (t : Tid) (ch : Ch) :
    Drained c s0 (SinkFull.step c s t ch) := by
  obtain ⟨hr, ha, hrot, ho, hpcs, hsame⟩ := h
  have hr' : Reach c true (SinkFull.step c s t ch) := .next hr (.step s t ch)
  have hacc := drained_accepted hcap hr t ch (hpcs t)
  have hp := hpcs t
  have key : (SinkFull.step c s t ch).written = s.written ∧ (SinkFull.step c s t ch).gens = s.gens ∧ (SinkFull.step c s t ch).dev = s.dev ∧
      (SinkFull.step c s t ch).needRotate = s.needRotate ∧ (SinkFull.step c s t ch).owner = s.owner ∧
      (emptyHanded ((SinkFull.step c s t ch).pc t) = true ∨ ∃ k, (SinkFull.step c s t ch).pc t = .uncount k) := by
    cases hq : s.pc t <;> rw [hq] at hp <;> try (cases hp; done)
    case write k e =>
      cases e with
      | some e => cases hp
      | none => unfold SinkFull.step; simp only [hq]; exact ⟨rfl, rfl, rfl, rfl, rfl, .inl (by cases k <;> first | (cases hp; done) | simp [setPc, upd, emptyHanded])⟩
    case enter k =>
      unfold SinkFull.step; simp only [hq]
      split <;> exact ⟨rfl, rfl, rfl, rfl, rfl, .inl (by cases k <;> first | (cases hp; done) | simp [setPc, upd, emptyHanded, afterFlush])⟩
    case get k =>
      unfold SinkFull.step; simp only [hq]
      exact ⟨rfl, rfl, rfl, rfl, rfl, .inl (by cases k <;> first | (cases hp; done) | simp [setPc, upd, emptyHanded])⟩
    case getIn k =>
      unfold SinkFull.step; simp only [hq]
      split
      · split
        · exact ⟨rfl, rfl, rfl, rfl, rfl, .inr ⟨k, by simp [setPc, upd, taking, hk]⟩⟩
        · exact ⟨rfl, rfl, rfl, rfl, rfl, .inl (by cases k <;> first | (cases hp; done) | simp [setPc, upd, emptyHanded, nothing, hk])⟩
      · exact ⟨rfl, rfl, rfl, rfl, rfl, .inl (by show emptyHanded (s.pc t) = true; rw [hq]; exact hp)⟩
    case casRotate k =>
      unfold SinkFull.step; simp only [hq]; rw [hrot, if_neg (by simp)]
      exact ⟨rfl, rfl, rfl, hrot, rfl, .inl (by cases k <;> first | (cases hp; done) | simp [setPc, upd, emptyHanded])⟩
    case leave k =>
      unfold SinkFull.step; simp only [hq]
      exact ⟨rfl, rfl, rfl, rfl, rfl, .inl (by cases k <;> first | (cases hp; done) | simp [setPc, upd, emptyHanded, afterFlush])⟩
    case sizeIn =>
      unfold SinkFull.step; simp only [hq]
      split
      · exact ⟨rfl, rfl, rfl, rfl, rfl, .inl (by simp only [setPc, upd, if_pos]; split <;> rfl)⟩
      · exact ⟨rfl, rfl, rfl, rfl, rfl, .inl (by show emptyHanded (s.pc t) = true; rw [hq]; rfl)⟩
    case idle => rw [show SinkFull.step c s t ch = s by unfold SinkFull.step; simp only [hq]]; exact ⟨rfl, rfl, rfl, rfl, rfl, .inl (by rw [hq]; rfl)⟩
    case wExit => rw [show SinkFull.step c s t ch = s by unfold SinkFull.step; simp only [hq]]; exact ⟨rfl, rfl, rfl, rfl, rfl, .inl (by rw [hq]; rfl)⟩
    case wWait =>
      unfold SinkFull.step; simp only [hq]
      split
      · exact ⟨rfl, rfl, rfl, rfl, rfl, .inl (by simp [setPc, upd, emptyHanded])⟩
      · exact ⟨rfl, rfl, rfl, rfl, rfl, .inl (by rw [hq]; rfl)⟩
    all_goals
      unfold SinkFull.step; simp only [hq]
      (repeat' split) <;> exact ⟨rfl, rfl, rfl, rfl, rfl, .inl (by simp [setPc, upd, emptyHanded])⟩
  obtain ⟨k1, k2, k3, k4, k5, k6⟩ := key
  have hall : (SinkFull.step c s t ch).written = accepted (SinkFull.step c s t ch) := by rw [k1, hacc]; exact ha
  refine ⟨hr', hall, k4.trans hrot, k5.trans ho, ?_, ⟨k2.trans hsame.1, k3.trans hsame.2.1, k1.trans hsame.2.2⟩⟩
  intro u
  by_cases e : u = t
  · subst e
    rcases k6 with k6 | ⟨k, k6⟩
    · exact k6
    · exact absurd k6 (drained_no_take hcap hr' hall)
  · rw [Race.step_pc_other c s t ch u e]; exact hpcs u

theorem Drained.call {c : Cfg} {s0 s : St} (h : Drained c s0 s) {t : Tid} (ht : t ≠ workerTid) (hi : s.pc t = .idle) {k : SinkConc.Call}
    (hk : emptyHanded (startPC k) = true) : Drained c s0 (setPc s t (startPC k)) :=
  ⟨.next h.reach (.call s t ht hi h.owner k), h.all, h.rotate, h.owner, emptyHanded_upd h.pcs hk, h.same⟩

theorem Drained.only {c : Cfg} (hcap : 0 < c.capacity) (hk : c.isSyslog = false) {s0 s : St} (h : OnlyFlushes c s0 s) (h0 : Drained c s0 s0) :
    Drained c s0 s := by
  induction h with
  | refl => exact h0
  | flush _ t ht hi ih => exact ih.call ht hi rfl
  | asyncFlush _ t ht hi ih => exact ih.call ht hi rfl
  | step _ t ch ih => exact ih.step hcap hk t ch

/-! ### zero latency -/

/-- no request, nobody at the stream's flush -/
structure NoRequest (s : St) : Prop where
  flag : s.needFlush = false
  pcs : ∀ t k, s.pc t ≠ .sync k
  join : ∀ t, s.pc t ≠ .dAsync

theorem noRequest_pc {s s' : St} {t : Tid} (h : NoRequest s) (hf : s'.needFlush = s.needFlush) (hother : ∀ u, u ≠ t → s'.pc u = s.pc u)
    (h1 : ∀ k, s'.pc t ≠ .sync k) (h2 : s'.pc t ≠ .dAsync) : NoRequest s' := by
  refine ⟨hf.trans h.flag, fun u k => ?_, fun u => ?_⟩
  · by_cases e : u = t
    · subst e; exact h1 k
    · rw [hother u e]; exact h.pcs u k
  · by_cases e : u = t
    · subst e; exact h2
    · rw [hother u e]; exact h.join u

theorem startPC_cases (k : SinkConc.Call) : (∀ k', startPC k ≠ .sync k') ∧ startPC k ≠ .dAsync := by
  cases k <;> exact ⟨by intro k'; simp [startPC], by simp [startPC]⟩

theorem noRequest_step {c : Cfg} (hl0 : c.latency0 = true) {s : St} (h : NoRequest s) (t : Tid) (ch : Ch) : NoRequest (step c s t ch) := by
  have hother := fun u (e : u ≠ t) => Race.step_pc_other c s t ch u e
  have ha : ∀ k, (∀ k', afterFlush k ≠ .sync k') ∧ afterFlush k ≠ .dAsync := by intro k; cases k <;> simp [afterFlush]
  have key : (step c s t ch).needFlush = s.needFlush ∧ (∀ k, (step c s t ch).pc t ≠ .sync k) ∧ (step c s t ch).pc t ≠ .dAsync := by
    cases hp : s.pc t
    case idle => rw [show step c s t ch = s by unfold step; simp only [hp]]; exact ⟨rfl, fun k' => h.pcs t k', h.join t⟩
    case wExit => rw [show step c s t ch = s by unfold step; simp only [hp]]; exact ⟨rfl, fun k' => h.pcs t k', h.join t⟩
    case dead => rw [show step c s t ch = s by unfold step; simp only [hp]]; exact ⟨rfl, fun k' => h.pcs t k', h.join t⟩
    case sync k => exact absurd hp (h.pcs t k)
    case dAsync => exact absurd hp (h.join t)
    case casFlush k =>
      unfold step; simp only [hp]; rw [h.flag, if_neg (by simp)]; exact ⟨h.flag, by simp [setPc, upd], by simp [setPc, upd]⟩
    case enter k => unfold step; simp only [hp]; split <;> exact ⟨rfl, by simp [setPc, upd, ha], by simp [setPc, upd, ha]⟩
    case leave k => unfold step; simp only [hp]; exact ⟨rfl, by simp [setPc, upd, ha], by simp [setPc, upd, ha]⟩
    case sClear k => unfold step; simp only [hp]; exact ⟨h.flag.symm, by simp [setPc, upd], by simp [setPc, upd]⟩
    case write k e =>
      cases e
      · unfold step; simp only [hp]; exact ⟨rfl, by simp [setPc, upd], by simp [setPc, upd]⟩
      · unfold step; simp only [hp]; split <;> exact ⟨rfl, by simp [setPc, upd], by simp [setPc, upd]⟩
    case getIn k =>
      unfold step; simp only [hp]; split
      · split
        · exact ⟨rfl, by simp only [setPc, upd, taking, if_pos]; split <;> simp, by simp only [setPc, upd, taking, if_pos]; split <;> simp⟩
        · exact ⟨rfl, by simp only [setPc, upd, nothing, if_pos]; split <;> simp, by simp only [setPc, upd, nothing, if_pos]; split <;> simp⟩
      · exact ⟨rfl, fun k' => h.pcs t k', h.join t⟩
    case sizeIn =>
      unfold step; simp only [hp]; split
      · exact ⟨rfl, by simp only [setPc, upd, if_pos]; split <;> simp, by simp only [setPc, upd, if_pos]; split <;> simp⟩
      · exact ⟨rfl, fun k' => h.pcs t k', h.join t⟩
    case async => unfold step; simp only [hp]; rw [if_pos hl0]; exact ⟨rfl, by simp [setPc, upd], by simp [setPc, upd]⟩
    case dStart => unfold step; simp only [hp]; rw [if_pos hl0]; exact ⟨rfl, by simp [setPc, upd], by simp [setPc, upd]⟩
    all_goals
      unfold step; simp only [hp]
      (repeat' split) <;> first
        | exact ⟨rfl, by simp [setPc, upd, hp], by simp [setPc, upd, hp]⟩
        | exact ⟨rfl, fun k' => h.pcs t k', h.join t⟩
  exact noRequest_pc h key.1 hother key.2.1 key.2.2

theorem noRequest_reach {c : Cfg} {o : Bool} (hl0 : c.latency0 = true) {s : St} (h : Reach c o s) : NoRequest s := by
  induction h with
  | init =>
    refine ⟨rfl, fun t k => ?_, fun t => ?_⟩ <;> (unfold init; dsimp only; (repeat' split) <;> simp)
  | @next s s' hr he ih =>
    cases he with
    | call t ht hi hd k =>
      exact noRequest_pc (t := t) ih rfl (fun u e => if_neg e) (by simp only [setPc, upd, if_pos]; exact (startPC_cases k).1) (by simp only [setPc, upd, if_pos]; exact (startPC_cases k).2)
    | destroy t ht hd hi =>
      exact noRequest_pc (t := t) ih rfl (fun u e => if_neg e) (by simp [setPc, upd]) (by simp [setPc, upd])
    | step t ch => exact noRequest_step hl0 ih t ch

/-- without a rotation: nobody at the re-opening, and nobody destroys -/
structure Kept (c : Cfg) (s0 s : St) : Prop where
  reach : Reach c true s
  rotate : s.needRotate = false
  owner : s.owner = none
  pcs : ∀ t, (∀ k, s.pc t ≠ .reopen k) ∧ s.pc t ≠ .rotate
  same : s.gens = s0.gens ∧ s.dev = s0.dev

theorem Kept.run {c : Cfg} (hcap : 0 < c.capacity) (hl0 : c.latency0 = true) {s0 s : St} (h : NoOverflow c s0 s) (h0 : Kept c s0 s0) : Kept c s0 s := by
  induction h with
  | refl => exact h0
  | call _ t ht hi k hk ih =>
    refine ⟨.next ih.reach (.call _ t ht hi ih.owner k), ih.rotate, ih.owner, fun u => ?_, ih.same⟩
    show (∀ k', upd _ t (startPC k) u ≠ .reopen k') ∧ upd _ t (startPC k) u ≠ .rotate
    unfold upd; split
    · cases k <;> first | exact absurd rfl hk | exact ⟨by intro k'; simp [startPC], by simp [startPC]⟩
    · exact ih.pcs u
  | @step s h t ch hs ih =>
    have hr' : Reach c true (SinkFull.step c s t ch) := .next ih.reach (.step s t ch)
    have hN := noRequest_reach hl0 ih.reach
    have hdead : s.pc t ≠ .dEnd := by
      intro hp
      obtain ⟨a, hra, hrel⟩ := rel_refines hcap ih.reach
      have h1 := rel_simple_pc hrel (t := t) (by rw [hp]; rfl)
      by_cases e : t = workerTid
      · subst e
        have := (SinkConc.roles_reach hra).worker
        rw [h1] at this; cases this
      · have := (SinkConc.roles_reach hra).clients (by rw [hrel.1]; exact ih.owner) t e
        rw [h1] at this; cases this
    have ha : ∀ k, (∀ k', afterFlush k ≠ .reopen k') ∧ afterFlush k ≠ .rotate := by intro k; cases k <;> simp [afterFlush]
    have key : (SinkFull.step c s t ch).gens = s.gens ∧ (SinkFull.step c s t ch).dev = s.dev ∧ (SinkFull.step c s t ch).needRotate = s.needRotate ∧
        (∀ k, (SinkFull.step c s t ch).pc t ≠ .reopen k) ∧ (SinkFull.step c s t ch).pc t ≠ .rotate := by
      cases hp : s.pc t
      case idle => rw [show SinkFull.step c s t ch = s by unfold SinkFull.step; simp only [hp]]; exact ⟨rfl, rfl, rfl, (ih.pcs t).1, (ih.pcs t).2⟩
      case wExit => rw [show SinkFull.step c s t ch = s by unfold SinkFull.step; simp only [hp]]; exact ⟨rfl, rfl, rfl, (ih.pcs t).1, (ih.pcs t).2⟩
      case dead => rw [show SinkFull.step c s t ch = s by unfold SinkFull.step; simp only [hp]]; exact ⟨rfl, rfl, rfl, (ih.pcs t).1, (ih.pcs t).2⟩
      case sync k => exact absurd hp (hN.pcs t k)
      case dEnd => exact absurd hp hdead
      case reopen k => exact absurd hp ((ih.pcs t).1 k)
      case rotate => exact absurd hp (ih.pcs t).2
      case casRotate k => unfold SinkFull.step; simp only [hp]; rw [ih.rotate, if_neg (by simp)]; exact ⟨rfl, rfl, ih.rotate, by simp [setPc, upd], by simp [setPc, upd]⟩
      case enter k => unfold SinkFull.step; simp only [hp]; split <;> exact ⟨rfl, rfl, rfl, by simp [setPc, upd, ha], by simp [setPc, upd, ha]⟩
      case leave k => unfold SinkFull.step; simp only [hp]; exact ⟨rfl, rfl, rfl, by simp [setPc, upd, ha], by simp [setPc, upd, ha]⟩
      case write k e =>
        cases e
        · unfold SinkFull.step; simp only [hp]; exact ⟨rfl, rfl, rfl, by simp [setPc, upd], by simp [setPc, upd]⟩
        · unfold SinkFull.step; simp only [hp]; split
          · exact ⟨rfl, by simp [setPc, hs], rfl, by simp [setPc, upd], by simp [setPc, upd]⟩
          · exact ⟨rfl, rfl, rfl, by simp [setPc, upd], by simp [setPc, upd]⟩
      case getIn k =>
        unfold SinkFull.step; simp only [hp]; split
        · split
          · exact ⟨rfl, rfl, rfl, by simp only [setPc, upd, taking, if_pos]; split <;> simp, by simp only [setPc, upd, taking, if_pos]; split <;> simp⟩
          · exact ⟨rfl, rfl, rfl, by simp only [setPc, upd, nothing, if_pos]; split <;> simp, by simp only [setPc, upd, nothing, if_pos]; split <;> simp⟩
        · exact ⟨rfl, rfl, rfl, (ih.pcs t).1, (ih.pcs t).2⟩
      case sizeIn =>
        unfold SinkFull.step; simp only [hp]; split
        · exact ⟨rfl, rfl, rfl, by simp only [setPc, upd, if_pos]; split <;> simp, by simp only [setPc, upd, if_pos]; split <;> simp⟩
        · exact ⟨rfl, rfl, rfl, (ih.pcs t).1, (ih.pcs t).2⟩
      all_goals
        unfold SinkFull.step; simp only [hp]
        (repeat' split) <;> first
          | exact ⟨rfl, rfl, rfl, by simp [setPc, upd, hp], by simp [setPc, upd, hp]⟩
          | exact ⟨rfl, rfl, rfl, (ih.pcs t).1, (ih.pcs t).2⟩
    obtain ⟨k1, k2, k3, k4, k5⟩ := key
    have hown : (SinkFull.step c s t ch).owner = s.owner := step_owner c s t ch
    refine ⟨hr', k3.trans ih.rotate, hown.trans ih.owner, fun u => ?_, ⟨k1.trans ih.same.1, k2.trans ih.same.2⟩⟩
    by_cases e : u = t
    · subst e; exact ⟨k4, k5⟩
    · rw [Race.step_pc_other c s t ch u e]; exact ih.pcs u

end SinkFull
end Soralog
