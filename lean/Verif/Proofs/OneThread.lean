import Verif.Spec.OneThread
import Verif.Proofs.LoneCall
import Verif.Proofs.ManyLock
import Verif.Proofs.SinkFullDeliver
import Verif.Proofs.SinkFullFair
/-! # Calls that do not overlap -/
namespace Soralog
namespace OneThread
open Sink (Leaf World)
open SinkConc (Cfg Ch PC Ret)

variable {cf : Sink.Cfg} {w : World} {fin : Leaf}

/-- file:224-241 -/
def rotateIf (l : Leaf) : Leaf := if l.cfg.kind = .file then l.maybeRotate else l

/-- what is left of `maybeRotate` after the exchange -/
def reopenRest (l : Leaf) : Leaf :=
  let l := { l with openCount := l.openCount + 1 }
  if l.w.openOk (l.openCount - 1) then { l with isOpen := true, gen := l.gen + 1 } else l

/-- what is left of `flush` when these events have been rendered since it was entered -/
def flushRest (l : Leaf) (run : List Event) : Leaf :=
  if l.cfg.kind = .syslog then
    Leaf.drainSyslog l.queue (Sink.staged l.w.lt l.cfg.ti l.cfg.maxBuffer run).2 (Sink.staged l.w.lt l.cfg.ti l.cfg.maxBuffer run).1 l
  else l.flush

/-- what is left after `flush` -/
def Cont (cf : Sink.Cfg) (w : World) (fin : Leaf) : Ret → Leaf → Prop
  | .done, l => l = fin
  | .worker, l => l = fin
  | .retry e, l => ∃ m n, e = mkEvent (w.env l.accepted.length) cf.ti cf.maxLen m ∧ (Leaf.pushLoop m n l).map Leaf.afterStore = some fin
  | _, _ => False

/-- the state agrees with `l`, and the queue is sane -/
structure Ok (cf : Sink.Cfg) (w : World) (l : Leaf) (v : View) (k j : Nat) : Prop where
  same : Same cf w l v k j
  taken : v.taken ≤ v.put.length
  room : v.put.length ≤ v.taken + cf.capacity

/-- where a lone thread is -/
def Here (cf : Sink.Cfg) (w : World) (fin : Leaf) (p : PC) (v : View) (flag : Bool) (run : List Event) (k j : Nat) : Prop :=
  match p with
  | .idle => flag = false ∧ Ok cf w fin v k j
  | .wWait => flag = false ∧ Ok cf w fin v k j
  | .wCheck => flag = false ∧ Ok cf w fin v k j
  | .wSize => flag = false ∧ Ok cf w fin v k j
  | .wExit => flag = false ∧ Ok cf w fin v k j
  | .put e => flag = false ∧ ∃ l, Ok cf w l v k j ∧ Cont cf w fin (.retry e) l
  | .count n => flag = false ∧ ∃ l e, Ok cf w l v k j ∧ v.put[n]? = some e ∧ Leaf.afterStore { l with size := Sink.addSize l.size e.message.length } = fin
  | .release _ => flag = false ∧ ∃ l, Ok cf w l v k j ∧ l.afterStore = fin
  | .decide => flag = false ∧ ∃ l, Ok cf w l v k j ∧ l.afterStore = fin
  | .async => flag = false ∧ ∃ l, Ok cf w l v k j ∧ l.asyncFlush = fin
  | .rotate => flag = false ∧ ∃ l, Ok cf w l v k j ∧ l.rotate = fin
  | .enter r => flag = false ∧ ∃ l, Ok cf w l v k j ∧ Cont cf w fin r l.flush
  | .get r => ∃ l, Ok cf w l v k j ∧ Cont cf w fin r (flushRest l run)
  | .uncount r e => cf.kind ≠ .syslog ∧ ∃ l, Ok cf w l v k j ∧ Cont cf w fin r (rotateIf (({ l with size := Sink.subSize l.size e.message.length }.write (l.record e).out).clearNeedFlush))
  | .unref r e => cf.kind ≠ .syslog ∧ ∃ l, Ok cf w l v k j ∧ Cont cf w fin r (rotateIf ((l.write (l.record e).out).clearNeedFlush))
  | .write r (some e) => cf.kind ≠ .syslog ∧ ∃ l, Ok cf w l v k j ∧ Cont cf w fin r (rotateIf ((l.write (l.record e).out).clearNeedFlush))
  | .write r none => ∃ l, Ok cf w l v k j ∧ Cont cf w fin r (rotateIf l)
  | .casFlush r => ∃ l, Ok cf w l v k j ∧ Cont cf w fin r (rotateIf l.clearNeedFlush)
  | .sync r => ∃ l, Ok cf w l v k j ∧ Cont cf w fin r (rotateIf l)
  | .casRotate r => ∃ l, Ok cf w l v k j ∧ Cont cf w fin r (rotateIf l)
  | .reopen r => cf.kind = .file ∧ ∃ l, Ok cf w l v k j ∧ Cont cf w fin r (reopenRest l)
  | .leave r => ∃ l, Ok cf w l v k j ∧ Cont cf w fin r l
  | .sCall r e => cf.kind = .syslog ∧ ∃ l, Ok cf w l v k j ∧ Cont cf w fin r (Leaf.drainSyslog (e :: l.queue) (Sink.staged l.w.lt l.cfg.ti l.cfg.maxBuffer run).2 (Sink.staged l.w.lt l.cfg.ti l.cfg.maxBuffer run).1 l)
  | .sUncount r e => cf.kind = .syslog ∧ ∃ l, Ok cf w l v k j ∧ Cont cf w fin r (flushRest { l with size := Sink.subSize l.size e.message.length } run)
  | .sUnref r _ => cf.kind = .syslog ∧ ∃ l, Ok cf w l v k j ∧ Cont cf w fin r (flushRest l run)
  | .sClear r => cf.kind = .syslog ∧ ∃ l, Ok cf w l v k j ∧ l.queue = [] ∧ Cont cf w fin r { l with needFlush := false, ub := l.ub || (Sink.staged l.w.lt l.cfg.ti l.cfg.maxBuffer run).1.overflow }
  | _ => False

/-- the sink as a sink of the model with several threads -/
abbrev conf (cf : Sink.Cfg) (w : World) : Cfg := (Many.leafOf w true cf).conc

theorem conf_file : (conf cf w).isFile = decide (cf.kind = .file) := by
  show decide (Many.kindOf cf.kind = .file) = _
  cases cf.kind <;> rfl

theorem conf_syslog : (conf cf w).isSyslog = decide (cf.kind = .syslog) := by
  show decide (Many.kindOf cf.kind = .syslog) = _
  cases cf.kind <;> rfl

theorem conf_latency : (conf cf w).latency0 = decide (cf.latency = 0) := rfl

theorem record_eq {l : Leaf} (hc : l.cfg = cf) (hw : l.w = w) (e : Event) : (l.record e).out = (conf cf w).render e := by
  subst hc hw
  rfl

theorem write_cfg (l : Leaf) (x : Text) : (l.write x).cfg = l.cfg := by unfold Leaf.write; split <;> rfl

theorem flushStream_cfg (l : Leaf) : l.flushStream.cfg = l.cfg := by
  unfold Leaf.flushStream
  split
  · rfl
  · exact write_cfg _ _

theorem flush_stream {l : Leaf} (hc : l.cfg = cf) (hs : cf.kind ≠ .syslog) (hn : cf.kind ≠ .nowhere) : l.flush = rotateIf l.flushStream := by
  unfold Leaf.flush rotateIf
  rw [flushStream_cfg, hc]
  cases hk : cf.kind with
  | console a b => simp
  | file => simp
  | syslog => exact absurd hk hs
  | nowhere => exact absurd hk hn

theorem flush_syslog {l : Leaf} (hc : l.cfg = cf) (hs : cf.kind = .syslog) : l.flush = flushRest l [] := by
  unfold flushRest
  rw [hc, if_pos hs]
  unfold Leaf.flush Leaf.staging
  rw [hc, hs]
  rfl

theorem flush_rest {l : Leaf} (hc : l.cfg = cf) : l.flush = flushRest l [] := by
  by_cases hs : cf.kind = .syslog
  · exact flush_syslog hc hs
  · unfold flushRest; rw [hc, if_neg hs]

theorem here_set {s : SinkConc.St} {t : Tid} {p : PC} {k j : Nat} (h : Here cf w fin p s.view s.flag s.run k j) :
    Here cf w fin ((SinkConc.setPc s t p).pc t) (SinkConc.setPc s t p).view (SinkConc.setPc s t p).flag (SinkConc.setPc s t p).run k j := by
  rw [show (SinkConc.setPc s t p).pc t = p by simp [SinkConc.setPc, upd]]; exact h

theorem drain_accepted (q : List Event) : ∀ (c : Render.Cache) (x : Render.W) (l : Leaf), (Leaf.drainSyslog q c x l).accepted = l.accepted := by
  induction q with
  | nil => intro c x l; rfl
  | cons e q ih =>
    intro c x l
    unfold Leaf.drainSyslog
    dsimp only
    rw [ih]
    split <;> rfl

theorem discard_accepted (q : List Event) : ∀ l : Leaf, (Leaf.discard q l).accepted = l.accepted := by
  induction q with
  | nil => intro l; rfl
  | cons e q ih => intro l; unfold Leaf.discard; rw [ih]

theorem flush_accepted (l : Leaf) : l.flush.accepted = l.accepted := by
  have hstream : ∀ l : Leaf, l.flushStream.accepted = l.accepted := fun l => by
    unfold Leaf.flushStream
    split
    · rfl
    · unfold Leaf.clearNeedFlush Leaf.write; dsimp only; split <;> rfl
  unfold Leaf.flush
  split
  · exact hstream l
  · unfold Leaf.maybeRotate
    dsimp only
    split
    · split <;> exact hstream l
    · exact hstream l
  · exact drain_accepted _ _ _ _
  · exact discard_accepted _ _

/-- after `flush` -/
theorem here_after {r : Ret} {v : View} {run : List Event} {k j : Nat} {l : Leaf} (h : Ok cf w l v k j) (hc : Cont cf w fin r l) :
    Here cf w fin (SinkConc.afterFlush r) v false run k j := by
  cases r with
  | done => cases hc; exact ⟨rfl, h⟩
  | retry e => exact ⟨rfl, l, h, hc⟩
  | worker => cases hc; exact ⟨rfl, h⟩
  | destroy => exact hc.elim

theorem map_same {α β : Type} {f g : α → β} {l : List α} (h : ∀ x ∈ l, f x = g x) : l.map f = l.map g := List.map_congr_left h

/-- a write to the open file -/
theorem files_write {l : Leaf} {x : Text} {old : List Text} {d : Text} (h : old ++ [d] = (List.range (l.gen + 1)).map (fileText l)) :
    old ++ [d ++ x] = (List.range (l.gen + 1)).map (fileText { l with written := l.written ++ [(l.gen, x)] }) := by
  rw [List.range_succ, List.map_append] at h ⊢
  obtain ⟨h1, h2⟩ := List.append_inj' h rfl
  have h2 : d = fileText l l.gen := by injection h2
  rw [h1]
  congr 1
  · refine map_same fun g hg => ?_
    have : g < l.gen := List.mem_range.1 hg
    unfold fileText
    rw [List.filter_append, List.flatMap_append]
    simp [show ¬ l.gen = g by omega]
  · show [d ++ x] = [fileText _ l.gen]
    unfold fileText
    rw [List.filter_append, List.flatMap_append]
    rw [h2]; unfold fileText; simp

theorem files_reopen {l : Leaf} {old : List Text} {d : Text} (h : old ++ [d] = (List.range (l.gen + 1)).map (fileText l))
    (hu : ∀ x ∈ l.written, x.1 ≤ l.gen) (l' : Leaf) (hl : l'.written = l.written) (hg : l'.gen = l.gen + 1) :
    old ++ [d] ++ [[]] = (List.range (l'.gen + 1)).map (fileText l') := by
  have he : ∀ g, fileText l' g = fileText l g := fun g => by unfold fileText; rw [hl]
  rw [hg, List.range_succ, List.map_append, h, map_same (fun g _ => (he g).symm)]
  congr 1
  show [[]] = [fileText l' (l.gen + 1)]
  rw [he]
  unfold fileText
  rw [List.filter_eq_nil_iff.2 fun x hx => by have := hu x hx; simp; omega]
  rfl

theorem here_step (hn : cf.kind ≠ .nowhere) (hb : cf.maxBuffer < 2 ^ 62) (hcap : 0 < cf.capacity) {s : SinkConc.St} {t : Tid} {ch : Ch} {k j k' j' : Nat}
    (h : Here cf w fin (s.pc t) s.view s.flag s.run k j) (ha : SinkConc.Answers (conf cf w) w (s.pc t) ch k j k' j') :
    Here cf w fin ((SinkConc.step (conf cf w) s t ch).pc t) (SinkConc.step (conf cf w) s t ch).view (SinkConc.step (conf cf w) s t ch).flag
      (SinkConc.step (conf cf w) s t ch).run k' j' := by
  cases hp : s.pc t
  case idle =>
    rw [hp] at h ha; obtain ⟨rfl, rfl⟩ := ha
    rw [show SinkConc.step (conf cf w) s t ch = s by unfold SinkConc.step; simp only [hp], hp]; exact h
  case wExit =>
    rw [hp] at h ha; obtain ⟨rfl, rfl⟩ := ha
    rw [show SinkConc.step (conf cf w) s t ch = s by unfold SinkConc.step; simp only [hp], hp]; exact h
  case wWait =>
    rw [hp] at h ha; obtain ⟨hto, rfl, rfl⟩ := ha
    rw [show SinkConc.step (conf cf w) s t ch = s by unfold SinkConc.step; simp [hp, hto], hp]; exact h
  case wCheck =>
    rw [hp] at h ha; obtain ⟨rfl, rfl⟩ := ha
    unfold SinkConc.step; simp only [hp]
    split
    · exact here_set h
    · exact here_set h
  case wSize =>
    rw [hp] at h ha; obtain ⟨rfl, rfl⟩ := ha
    unfold SinkConc.step; simp only [hp]
    split
    · exact here_set h
    · exact here_set h
  case put e =>
    rw [hp] at h ha; obtain ⟨rfl, rfl⟩ := ha
    obtain ⟨hf, l, hl, m, n, he, hfin⟩ := h
    have hq : l.queue.length = s.queued := by rw [hl.same.queue, List.length_drop]; rfl
    have hlt : s.queued ≤ cf.capacity := by
      have := hl.room
      show s.put.length - s.taken ≤ _
      have : s.put.length ≤ s.taken + cf.capacity := this
      omega
    have hcc : l.cfg.capacity = cf.capacity := by rw [hl.same.cfg]
    cases n with
    | zero => cases hfin
    | succ n =>
      unfold Leaf.pushLoop at hfin
      rw [hcc, if_neg (by omega), hq] at hfin
      unfold SinkConc.step; simp only [hp]
      split
      · rename_i hfull
        have hfull : s.queued = cf.capacity := hfull
        rw [if_neg (by omega)] at hfin
        refine here_set ⟨hf, l, hl, m, n, ?_, hfin⟩
        have : ∀ l : Leaf, l.flush.accepted = l.accepted := fun l => flush_accepted l
        rw [this]; exact he
      · rename_i hfull
        have hfull : ¬ s.queued = cf.capacity := hfull
        rw [if_pos (by omega)] at hfin
        split
        · rw [hp]; exact ⟨hf, l, hl, m, n + 1, he, by unfold Leaf.pushLoop; rw [hcc, if_neg (by omega), hq, if_pos (by omega)]; exact hfin⟩
        · refine here_set (s := { s with put := s.put ++ [e] }) ⟨hf, { l with queue := l.queue ++ [e], accepted := l.accepted ++ [e] }, e, ⟨?_, ?_, ?_⟩, ?_, ?_⟩
          · have := hl.same
            exact { this with
              queue := by
                show l.queue ++ [e] = List.drop s.taken (s.put ++ [e])
                rw [List.drop_append_of_le_length (show s.taken ≤ s.put.length from hl.taken), this.queue]; rfl
              accepted := by show l.accepted ++ [e] = s.put ++ [e]; rw [this.accepted]; rfl }
          · show s.taken ≤ (s.put ++ [e]).length
            have : s.taken ≤ s.put.length := hl.taken
            rw [List.length_append]; omega
          · show (s.put ++ [e]).length ≤ s.taken + cf.capacity
            have : s.put.length - s.taken = s.queued := rfl
            rw [List.length_append]; simp only [List.length_singleton]
            have : s.taken ≤ s.put.length := hl.taken
            omega
          · show (s.put ++ [e])[s.put.length]? = some e
            simp
          · have h1 : (Leaf.store l m).afterStore = fin := Option.some.inj hfin
            rw [← h1]
            unfold Leaf.store
            rw [hl.same.world, hl.same.cfg, ← he]
  case count n =>
    rw [hp] at h ha; obtain ⟨rfl, rfl⟩ := ha
    obtain ⟨hf, l, e, hl, he, hfin⟩ := h
    have he : s.put[n]? = some e := he
    unfold SinkConc.step; simp only [hp]
    refine here_set (s := { s with size := _, phase := _ }) ⟨hf, _, ⟨?_, hl.taken, hl.room⟩, hfin⟩
    have := hl.same
    have hsz : Sink.addSize l.size e.message.length = Sink.addSize s.size (s.put.getD n ⟨0, 0, [], [], .off, []⟩).message.length := by
      rw [show l.size = s.size from this.size, List.getD_eq_getElem?_getD, he]; rfl
    exact { this with size := hsz }
  case release n =>
    rw [hp] at h ha; obtain ⟨rfl, rfl⟩ := ha
    obtain ⟨hf, l, hl, hfin⟩ := h
    unfold SinkConc.step; simp only [hp]
    exact here_set (s := { s with phase := _ }) ⟨hf, l, hl, hfin⟩
  case decide =>
    rw [hp] at h ha; obtain ⟨rfl, rfl⟩ := ha
    obtain ⟨hf, l, hl, hfin⟩ := h
    unfold Leaf.afterStore at hfin
    have hm : l.highWater = (conf cf w).mark := by
      unfold Leaf.highWater Sink.word
      rw [hl.same.cfg, Nat.mod_eq_of_lt (by omega)]; rfl
    rw [hl.same.cfg, hm, show l.size = s.size from hl.same.size] at hfin
    unfold SinkConc.step; simp only [hp]
    rw [conf_latency]
    split
    · rename_i h0
      rw [if_pos (of_decide_eq_true h0)] at hfin
      exact here_set ⟨hf, l, hl, hfin⟩
    · rename_i h0
      rw [if_neg (fun e => h0 (decide_eq_true e))] at hfin
      split
      · rename_i h1; rw [if_pos h1] at hfin; exact here_set ⟨hf, l, hl, hfin⟩
      · rename_i h1; rw [if_neg h1] at hfin; subst hfin; exact here_set ⟨hf, hl⟩
  case async =>
    rw [hp] at h ha; obtain ⟨rfl, rfl⟩ := ha
    obtain ⟨hf, l, hl, hfin⟩ := h
    have hfin : (if cf.latency ≠ 0 then { l with needFlush := true } else l.flush) = fin := by
      rw [← hfin]; unfold Leaf.asyncFlush; rw [hl.same.cfg]
      cases hk : cf.kind with
      | nowhere => exact absurd hk hn
      | _ => rfl
    unfold SinkConc.step; simp only [hp]
    rw [conf_latency]
    split
    · rename_i h0
      rw [if_neg (fun e => e (of_decide_eq_true h0))] at hfin
      exact here_set ⟨hf, l, hl, hfin⟩
    · rename_i h0
      rw [if_pos (fun e => h0 (decide_eq_true e))] at hfin
      subst hfin
      refine here_set (s := { s with needFlush := true }) ⟨hf, ?_, hl.taken, hl.room⟩
      have := hl.same
      exact { this with needFlush := rfl }
  case rotate =>
    rw [hp] at h ha; obtain ⟨rfl, rfl⟩ := ha
    obtain ⟨hf, l, hl, hfin⟩ := h
    unfold SinkConc.step; simp only [hp]
    rw [conf_file]
    unfold Leaf.rotate at hfin
    have hkk : l.cfg.kind = cf.kind := by rw [hl.same.cfg]
    cases hk : cf.kind with
    | nowhere => exact absurd hk hn
    | file =>
      rw [hk] at hkk; simp only [hkk] at hfin
      rw [if_pos (by rfl)]
      refine here_set (s := { s with needRotate := true }) ⟨hf, _, ⟨?_, hl.taken, hl.room⟩, hfin⟩
      have := hl.same
      exact { this with needRotate := rfl }
    | _ =>
      rw [hk] at hkk; simp only [hkk] at hfin
      rw [if_neg (by simp)]
      subst hfin; exact here_set ⟨hf, hl⟩
  case enter r =>
    rw [hp] at h ha; obtain ⟨rfl, rfl⟩ := ha
    obtain ⟨hf, l, hl, hfin⟩ := h
    unfold SinkConc.step; simp only [hp]
    rw [hf, if_neg (by simp)]
    refine here_set (s := { s with flag := true, run := [] }) ⟨l, hl, ?_⟩
    show Cont cf w fin r (flushRest l [])
    rw [← flush_rest hl.same.cfg]; exact hfin
  case get r =>
    rw [hp] at h ha; obtain ⟨rfl, rfl⟩ := ha
    obtain ⟨l, hl, hfin⟩ := h
    unfold SinkConc.step; simp only [hp]
    cases hg : s.put[s.taken]? with
    | none =>
      have hq : l.queue = [] := by
        rw [hl.same.queue]; exact List.drop_eq_nil_of_le (List.getElem?_eq_none_iff.1 hg)
      refine here_set ?_
      unfold SinkConc.nothing
      rw [conf_syslog]
      by_cases hs : cf.kind = .syslog
      · rw [if_pos (decide_eq_true hs)]
        refine ⟨hs, l, hl, hq, ?_⟩
        unfold flushRest at hfin
        rw [if_pos (show l.cfg.kind = .syslog by rw [hl.same.cfg]; exact hs), hq] at hfin
        unfold Leaf.drainSyslog at hfin
        rw [show ({ l with needFlush := false, ub := l.ub || (Sink.staged l.w.lt l.cfg.ti l.cfg.maxBuffer s.run).1.overflow } : Leaf) =
          { l with queue := [], needFlush := false, ub := l.ub || (Sink.staged l.w.lt l.cfg.ti l.cfg.maxBuffer s.run).1.overflow } by rw [← hq]]
        exact hfin
      · rw [if_neg (by simpa using hs)]
        refine ⟨l, hl, ?_⟩
        unfold flushRest at hfin
        rw [hl.same.cfg, if_neg hs, flush_stream hl.same.cfg hs hn] at hfin
        unfold Leaf.flushStream at hfin
        rw [hq] at hfin; exact hfin
    | some e =>
      dsimp only
      split
      · have hlt : s.taken < s.put.length := (List.getElem?_eq_some_iff.1 hg).1
        have hq : l.queue = e :: s.put.drop (s.taken + 1) := by
          rw [hl.same.queue]
          show s.put.drop s.taken = _
          rw [List.drop_eq_getElem_cons hlt, (List.getElem?_eq_some_iff.1 hg).2]
        have hok : ∀ l' : Leaf, l'.queue = s.put.drop (s.taken + 1) → l' = { l with queue := l'.queue, ub := l'.ub } →
            Ok cf w l' { s.view with taken := s.taken + 1 } k' j' := by
          intro l' h1 h2
          refine ⟨?_, hlt, ?_⟩
          · have := hl.same
            rw [h2]
            exact { this with queue := h1 }
          · have : s.put.length ≤ s.taken + cf.capacity := hl.room
            show s.put.length ≤ s.taken + 1 + cf.capacity
            omega
        refine here_set (s := { s with taken := s.taken + 1, held := true }) ?_
        unfold SinkConc.taking
        rw [conf_syslog]
        by_cases hs : cf.kind = .syslog
        · rw [if_pos (decide_eq_true hs)]
          refine ⟨hs, { l with queue := s.put.drop (s.taken + 1) }, hok _ rfl rfl, ?_⟩
          unfold flushRest at hfin
          rw [if_pos (show l.cfg.kind = .syslog by rw [hl.same.cfg]; exact hs), hq] at hfin
          unfold Leaf.drainSyslog at hfin ⊢
          cases hpr : Sink.priority e.level with
          | none => rw [hpr] at hfin; exact hfin
          | some q => rw [hpr] at hfin; exact hfin
        · rw [if_neg (by simpa using hs)]
          unfold flushRest at hfin
          rw [hl.same.cfg, if_neg hs, flush_stream hl.same.cfg hs hn] at hfin
          unfold Leaf.flushStream at hfin
          rw [hq] at hfin
          exact ⟨hs, { l with queue := s.put.drop (s.taken + 1), ub := l.ub || (l.record e).overflow }, hok _ rfl rfl, hfin⟩
      · rw [hp]; exact ⟨l, hl, hfin⟩
  case uncount r e =>
    rw [hp] at h ha; obtain ⟨rfl, rfl⟩ := ha
    obtain ⟨hk, l, hl, hfin⟩ := h
    unfold SinkConc.step; simp only [hp]
    refine here_set (s := { s with size := _ }) ⟨hk, _, ⟨?_, hl.taken, hl.room⟩, hfin⟩
    have := hl.same
    have hsz : Sink.subSize l.size e.message.length = Sink.subSize s.size e.message.length := by rw [show l.size = s.size from this.size]
    exact { this with size := hsz }
  case unref r e =>
    rw [hp] at h ha; obtain ⟨rfl, rfl⟩ := ha
    obtain ⟨hk, l, hl, hfin⟩ := h
    unfold SinkConc.step; simp only [hp]
    exact here_set (s := { s with held := false }) ⟨hk, l, hl, hfin⟩
  case write r e =>
    cases e with
    | none =>
      rw [hp] at h ha; obtain ⟨rfl, rfl⟩ := ha
      obtain ⟨l, hl, hfin⟩ := h
      unfold SinkConc.step; simp only [hp]
      exact here_set ⟨l, hl, hfin⟩
    | some e =>
      rw [hp] at h ha; obtain ⟨rfl, rfl⟩ := ha
      obtain ⟨hk, l, hl, hfin⟩ := h
      have ho : l.isOpen = s.isOpen := hl.same.isOpen
      unfold Leaf.write at hfin
      unfold SinkConc.step; simp only [hp]
      split
      · rename_i h1
        rw [ho, if_pos h1] at hfin
        refine here_set (s := { s with dev := _, sbuf := _, written := _ }) ⟨_, ⟨?_, hl.taken, hl.room⟩, hfin⟩
        have := hl.same
        exact { this with
          isOpen := rfl
          files := fun hs => by
            show s.gens ++ [s.dev ++ List.take ch.spill (s.sbuf ++ (conf cf w).render e) ++ List.drop ch.spill (s.sbuf ++ (conf cf w).render e)] = _
            rw [List.append_assoc, List.take_append_drop, ← List.append_assoc, record_eq this.cfg this.world]
            exact files_write (this.files hs)
          upTo := fun hs x hx => by
            rcases List.mem_append.1 (show x ∈ l.written ++ [(l.gen, (l.record e).out)] from hx) with h2 | h2
            · exact this.upTo hs x h2
            · rw [List.mem_singleton.1 h2]; exact Nat.le_refl _
          calls := fun hs => absurd hs hk }
      · rename_i h1
        rw [ho, if_neg h1] at hfin
        exact here_set ⟨l, hl, hfin⟩
  case casFlush r =>
    rw [hp] at h ha; obtain ⟨hc, rfl, rfl⟩ := ha
    obtain ⟨l, hl, hfin⟩ := h
    have := hl.same
    unfold Leaf.clearNeedFlush at hfin
    rw [this.world, this.exchanges, ← hc, show l.needFlush = s.needFlush from this.needFlush] at hfin
    unfold SinkConc.step; simp only [hp]
    split
    · rename_i h1
      refine here_set (s := { s with needFlush := false }) ⟨_, ⟨?_, hl.taken, hl.room⟩, hfin⟩
      exact { this with
        world := rfl
        needFlush := by
          show (s.needFlush && !ch.casOk) = false
          cases h2 : s.needFlush <;> cases h3 : ch.casOk <;> simp_all
        exchanges := rfl }
    · rename_i h1
      refine here_set ⟨_, ⟨?_, hl.taken, hl.room⟩, hfin⟩
      exact { this with
        world := rfl
        needFlush := by
          show (s.needFlush && !ch.casOk) = s.needFlush
          cases h2 : s.needFlush <;> cases h3 : ch.casOk <;> simp_all
        exchanges := rfl }
  case sync r =>
    rw [hp] at h ha; obtain ⟨rfl, rfl⟩ := ha
    obtain ⟨l, hl, hfin⟩ := h
    unfold SinkConc.step; simp only [hp]
    refine here_set (s := { s with dev := _, sbuf := _ }) ⟨l, ⟨?_, hl.taken, hl.room⟩, hfin⟩
    have := hl.same
    have hfl : cf.kind ≠ .syslog → s.gens ++ [s.dev ++ s.sbuf ++ []] = (List.range (l.gen + 1)).map (fileText l) := fun hs => by
      rw [List.append_nil]; exact this.files hs
    exact { this with files := hfl }
  case casRotate r =>
    rw [hp] at h ha
    obtain ⟨l, hl, hfin⟩ := h
    have := hl.same
    unfold rotateIf at hfin
    rw [this.cfg] at hfin
    unfold SinkConc.Answers at ha
    unfold SinkConc.step; simp only [hp]
    rw [conf_file] at ha ⊢
    by_cases hk : cf.kind = .file
    · simp only [hk, decide_true, if_true, Bool.true_and] at ha hfin ⊢
      obtain ⟨hc, rfl, rfl⟩ := ha
      unfold Leaf.maybeRotate at hfin
      simp only [this.world, this.exchanges, ← hc, show l.needRotate = s.needRotate from this.needRotate] at hfin
      split
      · rename_i h1
        rw [if_pos h1] at hfin
        refine here_set (s := { s with needRotate := false }) ⟨hk, { l with casCount := k + 1, needRotate := false }, ⟨?_, hl.taken, hl.room⟩, ?_⟩
        · exact { this with needRotate := rfl, exchanges := rfl }
        · unfold reopenRest
          simp only [this.world]; exact hfin
      · rename_i h1
        rw [if_neg h1] at hfin
        refine here_set ⟨_, ⟨?_, hl.taken, hl.room⟩, hfin⟩
        exact { this with world := rfl, needRotate := rfl, exchanges := rfl }
    · simp only [hk, decide_false, if_false, Bool.false_and] at ha hfin ⊢
      simp only [Bool.false_eq_true, if_false] at ha ⊢
      obtain ⟨rfl, rfl⟩ := ha
      exact here_set ⟨l, hl, hfin⟩
  case reopen r =>
    rw [hp] at h ha; obtain ⟨hc, rfl, rfl⟩ := ha
    obtain ⟨hk, l, hl, hfin⟩ := h
    have := hl.same
    unfold reopenRest at hfin
    simp only [this.world, this.openings, Nat.add_sub_cancel, ← hc] at hfin
    have hs : cf.kind ≠ .syslog := by rw [hk]; simp
    unfold SinkConc.step; simp only [hp]
    split
    · rename_i h1
      rw [if_pos h1] at hfin
      refine here_set (s := { s with isOpen := true, gens := _, dev := [], sbuf := [] }) ⟨_, ⟨?_, hl.taken, hl.room⟩, hfin⟩
      exact { this with
        world := rfl
        isOpen := rfl, openings := rfl
        files := fun _ => by
          show s.gens ++ [s.dev ++ s.sbuf] ++ [[]] = _
          exact files_reopen (this.files hs) (this.upTo hs) _ rfl rfl
        upTo := fun _ x hx => Nat.le_succ_of_le (this.upTo hs x hx) }
    · rename_i h1
      rw [if_neg h1] at hfin
      refine here_set ⟨_, ⟨?_, hl.taken, hl.room⟩, hfin⟩
      exact { this with world := rfl, openings := rfl }
  case leave r =>
    rw [hp] at h ha; obtain ⟨rfl, rfl⟩ := ha
    obtain ⟨l, hl, hfin⟩ := h
    unfold SinkConc.step; simp only [hp]
    exact here_set (s := { s with flag := false }) (here_after hl hfin)
  case sCall r e =>
    rw [hp] at h ha; obtain ⟨rfl, rfl⟩ := ha
    obtain ⟨hk, l, hl, hfin⟩ := h
    unfold SinkConc.step; simp only [hp]
    have := hl.same
    have hst : Sink.staged l.w.lt l.cfg.ti l.cfg.maxBuffer (s.run ++ [e]) =
        Render.syslogRecord l.w.lt l.cfg.ti (Sink.staged l.w.lt l.cfg.ti l.cfg.maxBuffer s.run).2 (Sink.staged l.w.lt l.cfg.ti l.cfg.maxBuffer s.run).1 e := by
      unfold Sink.staged; rw [List.foldl_append]; rfl
    unfold Leaf.drainSyslog at hfin
    simp only [← hst] at hfin
    have hcalls : s.calls = l.written := this.calls hk
    have htext : ∀ es, (conf cf w).sysText es = Sink.cstr (Sink.staged l.w.lt l.cfg.ti l.cfg.maxBuffer es).1.out := fun es => by
      rw [this.world, this.cfg]; rfl
    cases hpr : Sink.priority e.level with
    | some q =>
      rw [hpr] at hfin
      refine here_set (s := { s with run := _, calls := _, written := _ }) ⟨hk, { l with written := l.written ++ [(q, Sink.cstr (Sink.staged l.w.lt l.cfg.ti l.cfg.maxBuffer (s.run ++ [e])).1.out)] }, ⟨?_, hl.taken, hl.room⟩, ?_⟩
      · exact { this with
          files := fun hs => absurd hk hs, upTo := fun hs => absurd hk hs
          calls := fun _ => by
            show s.calls ++ SinkConc.sysCalls (conf cf w) s.run e = _
            unfold SinkConc.sysCalls
            rw [hpr, hcalls, htext] }
      · unfold flushRest
        rw [if_pos (by show l.cfg.kind = _; rw [this.cfg]; exact hk)]
        exact hfin
    | none =>
      rw [hpr] at hfin
      refine here_set (s := { s with run := _, calls := _, written := _ }) ⟨hk, l, ⟨?_, hl.taken, hl.room⟩, ?_⟩
      · exact { this with
          calls := fun _ => by
            show s.calls ++ SinkConc.sysCalls (conf cf w) s.run e = _
            unfold SinkConc.sysCalls
            rw [hpr, hcalls, List.append_nil] }
      · unfold flushRest
        rw [if_pos (by show l.cfg.kind = _; rw [this.cfg]; exact hk)]
        exact hfin
  case sUncount r e =>
    rw [hp] at h ha; obtain ⟨rfl, rfl⟩ := ha
    obtain ⟨hk, l, hl, hfin⟩ := h
    unfold SinkConc.step; simp only [hp]
    refine here_set (s := { s with size := _ }) ⟨hk, _, ⟨?_, hl.taken, hl.room⟩, hfin⟩
    have := hl.same
    have hsz : Sink.subSize l.size e.message.length = Sink.subSize s.size e.message.length := by rw [show l.size = s.size from this.size]
    exact { this with size := hsz }
  case sUnref r e =>
    rw [hp] at h ha; obtain ⟨rfl, rfl⟩ := ha
    obtain ⟨hk, l, hl, hfin⟩ := h
    unfold SinkConc.step; simp only [hp]
    exact here_set (s := { s with held := false }) ⟨l, hl, hfin⟩
  case sClear r =>
    rw [hp] at h ha; obtain ⟨rfl, rfl⟩ := ha
    obtain ⟨hk, l, hl, hq, hfin⟩ := h
    unfold SinkConc.step; simp only [hp]
    refine here_set (s := { s with needFlush := false }) ⟨_, ⟨?_, hl.taken, hl.room⟩, hfin⟩
    have := hl.same
    exact { this with needFlush := rfl }
  all_goals (rw [hp] at h; exact h.elim)

/-! ### the sink on the real queue -/

theorem rel_view {c : Cfg} {o : Bool} {f : SinkFull.St} {a : SinkConc.St} (h : SinkFull.Rel c f a) (hr : SinkConc.Reach c o a) : a.view = f.view := by
  have ht := (SinkConc.tick_reach hr).taken
  obtain ⟨he, base, hR⟩ := h
  have hl : (a.put.drop a.taken).length = f.ring.buf.size := hR.inv.len
  rw [List.length_drop] at hl
  have h2 : a.taken = a.put.length - f.ring.buf.size := by omega
  have h1 : a.put = Spec.putsOf none f.ring.log := hR.log
  unfold SinkFull.St.view
  rw [← h1, ← h2]
  rw [he]; rfl

/-- where the lone thread is, for the sink on the real queue -/
def FHere (cf : Sink.Cfg) (w : World) (fin : Leaf) (t : Tid) (f : SinkFull.St) (k j : Nat) : Prop :=
  ∃ o a, SinkFull.Rel (conf cf w) f a ∧ SinkConc.Reach (conf cf w) o a ∧ Here cf w fin (a.pc t) a.view a.flag a.run k j

theorem answers_plain {c : Cfg} {p : PC} {ch : Ch} {k j : Nat} (h : ∀ r, p ≠ .casFlush r ∧ p ≠ .casRotate r ∧ p ≠ .reopen r) (hw : p ≠ .wWait) :
    SinkConc.Answers c w p ch k j k j := by
  cases p <;> first
    | exact ⟨rfl, rfl⟩
    | exact absurd rfl (h _).1
    | exact absurd rfl (h _).2.1
    | exact absurd rfl (h _).2.2
    | exact absurd rfl hw

theorem rel_answers {c : Cfg} {f : SinkFull.St} {a : SinkConc.St} (h : SinkFull.Rel c f a) {t : Tid} {ch : Ch} {k j k' j' : Nat}
    (ha : SinkFull.Answers c w (f.pc t) ch k j k' j') :
    (SinkFull.shown f t ch = true → SinkConc.Answers c w (a.pc t) ch k j k' j') ∧ (SinkFull.shown f t ch = false → k' = k ∧ j' = j) := by
  obtain ⟨_, base, hR⟩ := h
  have hp := hR.pcs t
  have key : ∀ (q : SinkConc.PC), SinkFull.simple (f.pc t) = some q → a.pc t = q := fun q hs => (hp.of_simple hs).2.2
  cases hf : f.pc t <;> rw [hf] at hp ha key
  case casFlush r => rw [key _ rfl]; exact ⟨fun _ => ha, fun h => by unfold SinkFull.shown at h; rw [hf] at h; cases h⟩
  case casRotate r => rw [key _ rfl]; exact ⟨fun _ => ha, fun h => by unfold SinkFull.shown at h; rw [hf] at h; cases h⟩
  case reopen r => rw [key _ rfl]; exact ⟨fun _ => ha, fun h => by unfold SinkFull.shown at h; rw [hf] at h; cases h⟩
  case wWait => rw [key _ rfl]; exact ⟨fun _ => ha, fun _ => ha.2⟩
  case sizeIn =>
    obtain ⟨rfl, rfl⟩ := ha
    refine ⟨fun hs => ?_, fun _ => ⟨rfl, rfl⟩⟩
    obtain ⟨_, ⟨_, h2⟩ | ⟨n, h1, _⟩⟩ := hp
    · rw [h2]; exact ⟨rfl, rfl⟩
    · unfold SinkFull.shown at hs
      rw [hf] at hs
      simp only [h1] at hs
      cases hs
  all_goals
    obtain ⟨rfl, rfl⟩ := ha
    refine ⟨fun _ => ?_, fun _ => ⟨rfl, rfl⟩⟩
    first
      | (rw [key _ rfl]; exact ⟨rfl, rfl⟩)
      | (refine answers_plain (fun r => ?_) ?_ <;>
         first
           | (obtain ⟨_, ⟨_, h2⟩ | ⟨_, h2⟩ | ⟨_, _, _, h2, _⟩⟩ := hp <;> rw [h2] <;> simp; done)
           | (obtain ⟨_, ⟨_, h2⟩ | ⟨_, h2⟩ | ⟨_, _, _, h2⟩⟩ := hp <;> rw [h2] <;> (try unfold SinkConc.nothing) <;> (try unfold SinkConc.taking) <;>
                (try split) <;> simp; done)
           | (obtain ⟨_, _, _, _, _, h2, _⟩ := hp; rw [h2]; simp; done)
           | (obtain ⟨_, _, _, _, h2⟩ := hp; rw [h2]; simp; done))

theorem fhere_step (hn : cf.kind ≠ .nowhere) (hb : cf.maxBuffer < 2 ^ 62) (hcap : 0 < cf.capacity) {f : SinkFull.St} {t : Tid} {ch : Ch} {k j k' j' : Nat}
    (h : FHere cf w fin t f k j) (ha : SinkFull.Answers (conf cf w) w (f.pc t) ch k j k' j') :
    FHere cf w fin t (SinkFull.step (conf cf w) f t ch) k' j' := by
  obtain ⟨o, a, hR, hr, hh⟩ := h
  obtain ⟨h1, h2⟩ := rel_answers hR ha
  have := SinkFull.rel_step hR hr t ch
  cases hs : SinkFull.shown f t ch with
  | true =>
    rw [hs, if_pos rfl] at this
    exact ⟨o, _, this, .next hr (.step _ t ch), here_step hn hb hcap hh (h1 hs)⟩
  | false =>
    rw [hs, if_neg (by simp)] at this
    obtain ⟨rfl, rfl⟩ := h2 hs
    exact ⟨o, _, this, hr, hh⟩

/-- between calls and passes -/
def Resting (p : SinkFull.PC) : Prop := p = .idle ∨ p = .wWait ∨ p = .wExit

theorem rel_resting {c : Cfg} {f : SinkFull.St} {a : SinkConc.St} (h : SinkFull.Rel c f a) {t : Tid} (hi : Resting (f.pc t)) :
    a.pc t = .idle ∨ a.pc t = .wWait ∨ a.pc t = .wExit := by
  rcases hi with e | e | e
  · exact Or.inl (SinkFull.rel_idle h e)
  · exact Or.inr (Or.inl (SinkFull.rel_simple_pc h (by rw [e]; rfl)))
  · exact Or.inr (Or.inr (SinkFull.rel_simple_pc h (by rw [e]; rfl)))

/-- at rest -/
theorem fhere_idle {f : SinkFull.St} {t : Tid} {k j : Nat} (h : FHere cf w fin t f k j) (hi : Resting (f.pc t)) : Same cf w fin f.view k j := by
  obtain ⟨o, a, hR, hr, hh⟩ := h
  rw [rel_view hR hr] at hh
  rcases rel_resting hR hi with e | e | e <;> rw [e] at hh <;> exact hh.2.same

theorem fhere_dead {f : SinkFull.St} {t : Tid} {k j : Nat} (h : FHere cf w fin t f k j) : f.pc t ≠ .dead := fun hi => by
  obtain ⟨o, a, hR, hr, hh⟩ := h
  rw [SinkFull.rel_simple_pc hR (t := t) (q := .dead) (by rw [hi]; rfl)] at hh
  exact hh

theorem fhere_of {f : SinkFull.St} {t : Tid} {k j : Nat} {o : Bool} (hcap : 0 < cf.capacity) (hr : SinkFull.Reach (conf cf w) o f)
    (hs : ∀ u, Resting (f.pc u)) (h : Same cf w fin f.view k j) : FHere cf w fin t f k j := by
  obtain ⟨a, har, hR⟩ := SinkFull.rel_refines hcap hr
  refine ⟨o, a, hR, har, ?_⟩
  have htk := SinkConc.tick_reach har
  have hflag : a.flag = false := by
    cases hx : a.flag with
    | false => rfl
    | true =>
      obtain ⟨u, hu⟩ := (SinkConc.excl_reach har).free hx
      rcases rel_resting hR (hs u) with e | e | e <;> rw [e] at hu <;> cases hu
  have hok : Ok cf w fin a.view k j := ⟨by rw [rel_view hR har]; exact h, htk.taken, htk.cap⟩
  rcases rel_resting hR (hs t) with e | e | e <;> rw [e] <;> exact ⟨hflag, hok⟩

/-- the worker wakes up -/
theorem fhere_wake {l : Leaf} {f : SinkFull.St} {t : Tid} {k j : Nat} (h : FHere cf w l t f k j) (hi : f.pc t = .wWait) {ch : Ch} (hto : ch.timeout = true) :
    FHere cf w l.flush t (SinkFull.step (conf cf w) f t ch) k j := by
  obtain ⟨o, a, hR, hr, hh⟩ := h
  have hai : a.pc t = .wWait := SinkFull.rel_simple_pc hR (by rw [hi]; rfl)
  have := SinkFull.rel_step hR hr t ch
  rw [show SinkFull.shown f t ch = true by unfold SinkFull.shown; rw [hi]; exact hto, if_pos rfl] at this
  refine ⟨o, _, this, .next hr (.step _ t ch), ?_⟩
  rw [hai] at hh
  unfold SinkConc.step
  simp only [hai, hto, if_true]
  exact here_set ⟨hh.1, l, hh.2, rfl⟩

end OneThread
end Soralog
