import Verif.Props.Rotate
import Verif.Props.ManyOrder
/-!
# C112: in a program that never stops, what has been logged is written in the end

`Endless S σ R`: an endless execution of any number of threads with one logging system under a fair scheduler, in which calls may be started for
ever (Spec/ManyFair.lean).
-/
namespace Soralog
namespace Many
namespace Lock
open Spec
open SinkConc (workerTid)

theorem Endless.accepted_grows {S : Setup} {σ : Nat → Deed} {R : Nat → St} (h : Endless S σ R) (i : Nat) {n m : Nat} (hm : n ≤ m) :
    acceptedBy ((R n).prog.leaf i) <+: acceptedBy ((R m).prog.leaf i) := by
  have key : ∀ k, acceptedBy ((R n).prog.leaf i) <+: acceptedBy ((R (n + k)).prog.leaf i) := by
    intro k
    induction k with
    | zero => exact List.prefix_refl _
    | succ k ih =>
      refine ih.trans ?_
      have hs : R (n + k + 1) = R (n + k) ∨ Exec S (R (n + k)) (R (n + k + 1)) := by
        by_cases hd : σ (n + k) = .start
        · have := h.next (n + k); rw [hd] at this; exact .inr this
        · rcases (h.next (n + k)).go hd with e | e
          · exact .inl e
          · exact .inr (.go e)
      rcases hs with e | e
      · show _ <+: acceptedBy ((R (n + k + 1)).prog.leaf i)
        rw [e]; exact List.prefix_refl _
      · rcases exec_prog e with e | e
        · show _ <+: acceptedBy ((R (n + k + 1)).prog.leaf i)
          rw [e]; exact List.prefix_refl _
        · exact ((exec_grows e).2 i).1
  have := key (m - n)
  rw [show n + (m - n) = m by omega] at this; exact this

/-- **C112**: an opened sink with a worker that is not destroyed; any moment `n` of an endless fair execution in which the spin locks starve nobody
and the workers' waits end.  From some later moment on the stream has been given (`syslog()` has been called for) the records of events `w ++ v`,
where `w` has, for every thread that is in no call of a sink at moment `n`, exactly the events of the messages the thread had addressed to the
sink by then: all, in order, each once; and of no thread is there anything it has not addressed to the sink. -/
theorem C112_written_in_the_end (S : Setup) (hS : S.Sound) (σ : Nat → Deed) (R : Nat → St) (h : Endless S σ R) (hg : StartsAreCalls S σ R)
    (hl : NobodyStarves R) (hw : WaitsEnd R) (i : Nat) (ho : (S.leaf i).opened = true) (hl0 : (S.leaf i).conc.latency0 = false)
    (n : Nat) (hk : ∀ m, n ≤ m → ((R m).prog.leaf i).owner = none) :
    ∃ M, n ≤ M ∧ ∀ m, M ≤ m → ∃ w v : List (Tid × Event),
      (∀ t, Free (R n).prog t → Matches (EventOf (S.leaf i)) (ofThread t w) (addressed S t i (R n).prog.said)) ∧
      (∀ t, ∃ done rest, addressed S t i (R m).prog.said = done ++ rest ∧ Matches (EventOf (S.leaf i)) (ofThread t (w ++ v)) done) ∧
      ((S.leaf i).conc.isSyslog = false →
        ((R m).prog.leaf i).gens.flatten ++ ((R m).prog.leaf i).dev ++ ((R m).prog.leaf i).sbuf = (w ++ v).flatMap (fun x => (S.leaf i).conc.render x.2)) ∧
      ((S.leaf i).conc.isSyslog = true → ((R m).prog.leaf i).calls.map (·.1) = (w ++ v).filterMap (fun x => syslogPriority x.2.level)) := by
  obtain ⟨σ', h1, _⟩ := (h.shift n).keptRun (fun m e => hg _ e) (i := i) (fun m => hk _ (by omega))
  rw [ho] at h1
  obtain ⟨M, _, hM⟩ := SinkFull.C95_worker_partial h1 (hS.room i) (hl.shift n i) hl0 (hw.shift n i) 0
  refine ⟨n + M, by omega, fun m hm => ?_⟩
  have hwr : SinkFull.accepted ((R n).prog.leaf i) <+: ((R m).prog.leaf i).written := by
    have := hM.trans (h1.written_mono (m := m - n) (by omega))
    rw [show n + (m - n) = m by omega] at this; exact this
  have hr := reach_prog (h.reach m)
  have hleaf := leaf_reach hr i
  rw [ho] at hleaf
  obtain ⟨h2, _, h3⟩ := SinkFull.C72_exactly_once_in_order _ (hS.room i) _ hleaf
  rw [← acceptedBy_map] at h2
  have hmap : ((acceptedBy ((R m).prog.leaf i)).take ((R m).prog.leaf i).written.length).map (·.2) = ((R m).prog.leaf i).written := by
    obtain ⟨c, hc⟩ := h2
    rw [List.map_take, ← hc, List.take_left]
  have hpre : acceptedBy ((R n).prog.leaf i) <+: (acceptedBy ((R m).prog.leaf i)).take ((R m).prog.leaf i).written.length := by
    have hlen := hwr.length_le
    rw [← acceptedBy_map, List.length_map] at hlen
    exact List.prefix_take_iff.2 ⟨h.accepted_grows i (by omega), hlen⟩
  obtain ⟨v, hv⟩ := hpre
  refine ⟨acceptedBy ((R n).prog.leaf i), v, fun t ht => ?_, fun t => ?_, fun hsy => ?_, fun hsy => ?_⟩
  · have := C89_delivered_once_in_order S hS _ (reach_prog (h.reach n)) t ht i
    rw [← acceptedBy_filter] at this
    exact this
  · rw [hv]
    obtain ⟨done, rest, h4, h5⟩ := C89_never_too_much S hS _ hr t i
    rw [← acceptedBy_filter] at h5
    obtain ⟨c, hc⟩ := ofThread_prefix t (List.take_prefix ((R m).prog.leaf i).written.length (acceptedBy ((R m).prog.leaf i)))
    unfold ofThread at hc ⊢
    rw [← hc] at h5
    exact ⟨_, done.drop _ ++ rest, by rw [h4, ← List.append_assoc, List.take_append_drop], h5.split.1⟩
  · rw [hv, h3 hsy]
    conv => lhs; rw [← hmap]
    rw [List.flatMap_map]
  · obtain ⟨a, ha, hput, _, hwrit, _, _, _, hcalls, _⟩ := SinkFull.C72_same_observations _ true (hS.room i) _ hleaf
    have := SinkConc.calls_reach ha hsy
    rw [hcalls, hwrit, ← hmap, List.filterMap_map] at this
    rw [hv, this]
    simp only [Sink.priority_eq]
    rfl

/-- **C104**, in a program that never stops: for a console or file, when a flush of the sink has been asked for (by `async_flush()`, `rotate()` or a
queue that has become full enough) and some event is accepted and not yet handed over then or later: what had been handed to the stream
when the request was pending reaches the operating system.  (No spurious failure of the exchange.) -/
theorem C104_program_partial (S : Setup) (hS : S.Sound) (σ : Nat → Deed) (R : Nat → St) (h : Endless S σ R) (hg : StartsAreCalls S σ R)
    (hl : NobodyStarves R) (hw : WaitsEnd R) (hc : NoSpuriousFailure σ) (i : Nat) (ho : (S.leaf i).opened = true)
    (hl0 : (S.leaf i).conc.latency0 = false) (hs : (S.leaf i).conc.isSyslog = false) (n : Nat) (hk : ∀ m, n ≤ m → ((R m).prog.leaf i).owner = none)
    (hn : ((R n).prog.leaf i).needFlush = true) (j : Nat) (hj : n ≤ j) (hq : ((R j).prog.leaf i).written ≠ SinkFull.accepted ((R j).prog.leaf i)) :
    ∃ m, n ≤ m ∧ ((R n).prog.leaf i).gens.flatten ++ ((R n).prog.leaf i).dev ++ ((R n).prog.leaf i).sbuf <+: SinkFull.inTheSystem ((R m).prog.leaf i) := by
  obtain ⟨σ', h1, h2⟩ := (h.shift n).keptRun (fun m e => hg _ e) (i := i) (fun m => hk _ (by omega))
  rw [ho] at h1
  have hj' : n + (j - n) = j := by omega
  obtain ⟨m, _, hm⟩ := SinkFull.C104_requested_partial h1 (hS.room i) (hl.shift n i) hl0 (hw.shift n i) (fun m t ch e => hc _ i t ch (h2 m t ch e)) hs 0 hn (j - n) (by omega)
    (by rw [hj']; exact hq)
  refine ⟨n + m, by omega, ?_⟩
  have hleaf := leaf_reach (reach_prog (h.reach n)) i
  rw [ho] at hleaf
  rw [(SinkFull.C72_exactly_once_in_order _ (hS.room i) _ hleaf).2.2 hs]
  exact hm

/-! ### the theorems apply: a program that calls for ever

Thread 1 has pushed "hel" to the file and has called `async_flush()`; thread 2 calls `push` of it with a message of level trace for ever (the sink, of level debug, does not
take it), while the workers go on. -/

def aMsg : Msg := ⟨['x'], .warn, ['h', 'e', 'l'], .ok ['h', 'e', 'l']⟩
def idleTalk : Msg := ⟨['x'], .trace, ['h', 'o'], .ok ['h', 'o']⟩

def bz0 : St := { lockStart with prog := { lockStart.prog with todo := upd lockStart.prog.todo 1 ((Direct.push aMsg).plan exampleSetup 2), said := lockStart.prog.said ++ (Direct.push aMsg).said 1 2 } }
def bz1 : St := { bz0 with prog := { bz0.prog with todo := upd bz0.prog.todo 1 [], leaf := upd bz0.prog.leaf 0 (SinkFull.setPc (bz0.prog.leaf 0) 1 (SinkFull.startPC (callAt 0 (.push aMsg)))) } }
def bz2 : St := { bz1 with prog := { bz1.prog with leaf := upd bz1.prog.leaf 0 (SinkFull.runN (exampleSetup.leaf 0).conc 1 30 (bz1.prog.leaf 0)) } }

def bz3 : St := { bz2 with prog := { bz2.prog with todo := upd bz2.prog.todo 1 (Direct.asyncFlush.plan exampleSetup 2), said := bz2.prog.said ++ Direct.asyncFlush.said 1 2 } }
def bz4 : St := { bz3 with prog := { bz3.prog with todo := upd bz3.prog.todo 1 [], leaf := upd bz3.prog.leaf 0 (SinkFull.setPc (bz3.prog.leaf 0) 1 (SinkFull.startPC (callAt 0 .asyncFlush))) } }
def bz5 : St := { bz4 with prog := { bz4.prog with leaf := upd bz4.prog.leaf 0 (SinkFull.runN (exampleSetup.leaf 0).conc 1 1 (bz4.prog.leaf 0)) } }

theorem bz2_facts : bz2.prog.todo 1 = [] ∧ (bz2.prog.leaf 0).pc 1 = .idle ∧ (bz2.prog.leaf 0).owner.isNone = true := by decide +kernel

theorem bz_facts : bz5.prog.todo 1 = [] ∧ (bz5.prog.leaf 0).pc 1 = .idle ∧ ((SinkFull.accepted (bz5.prog.leaf 0)).map (·.message)) = [['h', 'e', 'l']] ∧
    (bz5.prog.leaf 0).written = [] ∧ (bz5.prog.leaf 0).owner.isNone = true ∧ (bz5.prog.leaf 0).needFlush = true := by decide +kernel

theorem bz2_away {j : Nat} (hj : j ≠ 0) : bz2.prog.leaf j = lockStart.prog.leaf j := by
  show upd (upd lockStart.prog.leaf 0 _) 0 _ j = _
  rw [System.upd_other _ _ hj, System.upd_other _ _ hj]

theorem bz2_quiet (j : Nat) : quiet ((bz2.prog.leaf j).pc 1) := by
  by_cases hj : j = 0
  · subst hj; exact .inl bz2_facts.2.1
  · rw [bz2_away hj]; exact .inl rfl

theorem bz2_reach : Reach exampleSetup bz2 := by
  refine leafN_reach (s := bz1) (.next (.next (.init true id fun _ => .refl _) (.direct lockStart 1 2 (.push aMsg) (by decide) (start_rest 1 (by decide)).2.1 (fun e => by cases e) rfl)) (.go ?_))
  exact .enter bz0 1 0 (.push aMsg) [] _ (by decide) rfl (fun j => .inl rfl) rfl rfl (callAt_serves 0 _)

theorem bz5_reach : Reach exampleSetup bz5 := by
  refine leafN_reach (s := bz4) (.next (.next bz2_reach (.direct bz2 1 2 .asyncFlush (by decide) ⟨bz2_facts.1, bz2_quiet⟩ (fun e => by cases e) rfl)) (.go ?_))
  exact .enter bz3 1 0 .asyncFlush [] _ (by decide) (by unfold bz3; dsimp only; rw [System.upd_same]; rfl) bz2_quiet bz2_facts.2.1 (Option.isNone_iff_eq_none.1 bz2_facts.2.2) (callAt_serves 0 _)

theorem bz5_away {j : Nat} (hj : j ≠ 0) : bz5.prog.leaf j = lockStart.prog.leaf j := by
  show upd (upd bz2.prog.leaf 0 _) 0 _ j = _
  rw [System.upd_other _ _ hj, System.upd_other _ _ hj]; exact bz2_away hj

theorem runN_pc_other {c : SinkConc.Cfg} {t u : Tid} (hu : u ≠ t) (n : Nat) (f : SinkFull.St) : (SinkFull.runN c t n f).pc u = f.pc u := by
  induction n generalizing f with
  | zero => rfl
  | succ n ih => exact (ih _).trans (Race.step_pc_other _ _ _ _ _ hu)

theorem bz2_file : bz2.prog.leaf 0 = SinkFull.runN (exampleSetup.leaf 0).conc 1 30 (bz1.prog.leaf 0) := by
  unfold bz2; dsimp only; rw [System.upd_same]

theorem bz5_file : bz5.prog.leaf 0 = SinkFull.runN (exampleSetup.leaf 0).conc 1 1 (SinkFull.setPc (bz2.prog.leaf 0) 1 .async) := by
  unfold bz5; dsimp only; rw [System.upd_same]
  unfold bz4; dsimp only; rw [System.upd_same]; rfl

theorem bz5_rest (t : Tid) (ht : t ≠ workerTid) : AtRest bz5 t := by
  refine ⟨rfl, ⟨?_, fun j => .inl ?_⟩, (fun e => by cases e), (fun e => by cases e)⟩
  · by_cases h1 : t = 1
    · rw [h1]; exact bz_facts.1
    · show upd (upd (upd (upd lockStart.prog.todo 1 _) 1 _) 1 _) 1 _ t = _
      rw [System.upd_other _ _ h1, System.upd_other _ _ h1, System.upd_other _ _ h1, System.upd_other _ _ h1]; rfl
  · by_cases hj : j = 0
    · subst hj
      by_cases h1 : t = 1
      · rw [h1]; exact bz_facts.2.1
      · rw [bz5_file, runN_pc_other h1]
        show upd _ 1 _ t = _
        rw [System.upd_other _ _ h1, bz2_file, runN_pc_other h1]
        show (upd lockStart.prog.leaf 0 _ 0).pc t = _
        rw [System.upd_same]
        show upd _ 1 _ t = _
        rw [System.upd_other _ _ h1]; exact if_neg ht
    · rw [bz5_away hj]; exact if_neg ht

theorem bz5_owner (i : Nat) : (bz5.prog.leaf i).owner = none := by
  by_cases h0 : i = 0
  · rw [h0]; exact Option.isNone_iff_eq_none.1 bz_facts.2.2.2.2.1
  · rw [bz5_away h0]; rfl

/-- `n` calls of thread 2 that its sink does not take -/
def talked (n : Nat) (s : St) : St := { s with prog := { s.prog with said := s.prog.said ++ (List.replicate n ⟨2, .user, 2, idleTalk⟩) } }

def talking (n : Nat) : St := talked ((n + 1) / 2) (idling exampleSetup bz5 (n / 2))
def talkDeed (n : Nat) : Deed := if n % 2 = 0 then .start else idleDeed (n / 2)

theorem talking_leaf (n : Nat) : (talking n).prog.leaf = (idling exampleSetup bz5 (n / 2)).prog.leaf := rfl

theorem talking_rest (n : Nat) {t : Tid} (ht : t ≠ workerTid) : AtRest (talking n) t := idling_rest (S := exampleSetup) bz5_rest (n / 2) ht

theorem talk_start {n : Nat} (hn : n % 2 = 0) : Exec exampleSetup (talking n) (talking (n + 1)) := by
  obtain ⟨h1, h2, h3, _⟩ := talking_rest n (t := 2) (by decide)
  have := Exec.direct (S := exampleSetup) (talking n) 2 2 (.push idleTalk) (by decide) h2 h3 h1
  have e : talking (n + 1) = { talking n with prog := { (talking n).prog with todo := upd (talking n).prog.todo 2 ((Direct.push idleTalk).plan exampleSetup 2), said := (talking n).prog.said ++ (Direct.push idleTalk).said 2 2 } } := by
    have ht : upd (talking n).prog.todo 2 ((Direct.push idleTalk).plan exampleSetup 2) = (talking n).prog.todo := by
      funext t
      by_cases h : t = 2
      · rw [h, System.upd_same, h2.1]; rfl
      · rw [System.upd_other _ _ h]
    rw [ht]
    unfold talking talked
    rw [show (n + 1 + 1) / 2 = (n + 1) / 2 + 1 by omega, show (n + 1) / 2 = n / 2 by omega, List.replicate_succ']
    simp only [List.append_assoc]
    rfl
  rw [e]; exact this

theorem talk_starts {n : Nat} (hn : n % 2 = 0) : ¬ Go exampleSetup (talking n) (talking (n + 1)) := by
  have hlen : (talking (n + 1)).prog.said.length = (talking n).prog.said.length + 1 := by
    unfold talking talked
    rw [show (n + 1 + 1) / 2 = (n + 1) / 2 + 1 by omega, show (n + 1) / 2 = n / 2 by omega]
    simp only [List.length_append, List.length_replicate]
    omega
  intro h
  generalize talking (n + 1) = r at *
  have hs : r.prog.said = (talking n).prog.said := by
    cases h with
    | step t ht hf hb hi hl => exact absurd (talking_rest n ht).1 hi
    | _ => rfl
  rw [hs] at hlen
  omega

theorem talking_endless : Endless exampleSetup talkDeed talking := by
  have h0 : talking 0 = bz5 := by
    show talked 0 bz5 = bz5
    unfold talked
    simp only [List.replicate_zero, List.append_nil]
  have hnext : ∀ n, Does exampleSetup (talking n) (talkDeed n) (talking (n + 1)) := by
    intro n
    by_cases hn : n % 2 = 0
    · rw [show talkDeed n = .start from if_pos hn]; exact talk_start hn
    · rw [show talkDeed n = idleDeed (n / 2) from if_neg hn]
      show talking (n + 1) = _
      unfold talking
      rw [show (n + 1 + 1) / 2 = (n + 1) / 2 by omega, show (n + 1) / 2 = n / 2 + 1 by omega]
      rfl
  have hreach : ∀ n, Reach exampleSetup (talking n) := by
    intro n
    induction n with
    | zero => rw [h0]; exact bz5_reach
    | succ n ih => exact (hnext n).reach ih
  refine ⟨hreach 0, hnext, fun n d hd hp => ?_, fun n i t hrun => ?_⟩
  · exfalso
    obtain ⟨s', hs⟩ := hp n (Nat.le_refl _)
    cases d with
    | step t => exact hs.2.2.2.1 (talking_rest n hs.1).1
    | unlock t =>
      by_cases ht : t = workerTid
      · exact (holders (hreach n)).1 (ht ▸ hs.2.1)
      · exact (talking_rest n ht).2.2.1 hs.2.1
    | configured t =>
      by_cases ht : t = workerTid
      · exact (holders (hreach n)).2 (ht ▸ hs.2.2.1)
      · exact (talking_rest n ht).2.2.2 hs.2.2.1
    | enter t =>
      obtain ⟨i, q, rest, call, h1, h2, _⟩ := hs
      rw [(talking_rest n h1).2.1.1] at h2; cases h2
    | _ => cases hd
  · obtain ⟨m, ch, h1, h2⟩ := (idling_endless bz5_reach bz5_rest).inside (n / 2) i t hrun
    refine ⟨2 * m + 1, ch, by omega, ?_⟩
    rw [show talkDeed (2 * m + 1) = idleDeed ((2 * m + 1) / 2) from if_neg (by omega), show (2 * m + 1) / 2 = m by omega]
    exact h2

/-! the hypotheses of `C112_written_in_the_end` and of `C104_program_partial`, with calls for ever; at moment 0 nothing has been written -/
example : exampleSetup.Sound ∧ Endless exampleSetup talkDeed talking ∧ StartsAreCalls exampleSetup talkDeed talking ∧ NobodyStarves talking ∧ WaitsEnd talking ∧
    NoSpuriousFailure talkDeed ∧ (∀ n, ∃ m, n ≤ m ∧ talkDeed m = .start) ∧ (exampleSetup.leaf 0).opened = true ∧ (exampleSetup.leaf 0).conc.latency0 = false ∧
    (∀ m, ((talking m).prog.leaf 0).owner = none) ∧ Free (talking 0).prog 1 ∧ ((talking 0).prog.leaf 0).needFlush = true ∧ (exampleSetup.leaf 0).conc.isSyslog = false ∧
    (SinkFull.accepted ((talking 0).prog.leaf 0)).map (·.message) = [['h', 'e', 'l']] ∧ ((talking 0).prog.leaf 0).written = [] := by
  have hg := idling_good example_sound.room bz5_reach (kept_fresh _ bz5_owner) bz5_rest
  refine ⟨example_sound, talking_endless, fun n e => ?_, fun i n t hp => ?_, fun i n hp => ?_, fun n i t ch e => ?_, fun n => ⟨2 * n, by omega, if_pos (by omega)⟩, rfl, rfl,
    fun m => ?_, (talking_rest 0 (by decide)).2.1, bz_facts.2.2.2.2.2, rfl, bz_facts.2.2.1, bz_facts.2.2.2.1⟩
  · by_cases hn : n % 2 = 0
    · exact .inr (talk_starts hn)
    · rw [show talkDeed n = idleDeed (n / 2) from if_neg hn] at e; cases e
  · obtain ⟨m, h1, h2⟩ := hg.lock i (n / 2) t hp
    refine ⟨2 * m + 1, by omega, ?_⟩
    dsimp only
    rw [talking_leaf, show (2 * m + 1) / 2 = m by omega]; exact h2
  · obtain ⟨m, h1, h2⟩ := hg.waits i (n / 2) hp
    refine ⟨2 * m + 1, by omega, ?_⟩
    dsimp only
    rw [talking_leaf, show (2 * m + 1) / 2 = m by omega]; exact h2
  · unfold talkDeed at e
    split at e
    · cases e
    · cases e; rfl
  · rw [talking_leaf]
    have hlast : Last exampleSetup idleDeed (idling exampleSetup bz5) := ⟨hg.run, (fun n e => by cases e), kept_fresh _ bz5_owner⟩
    exact (hlast.owner_stays 0 (m / 2)).trans (bz5_owner 0)

end Lock
end Many
end Soralog
