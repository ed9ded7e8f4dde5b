import Verif.Proofs.OneByOne
import Verif.Props.ManyDoc
/-!
# C110: calls that do not overlap behave as in a program with one thread
-/
namespace Soralog
namespace Many
open Sink (World Heap Snk Leaf)
open OneThread (Same)

variable {S : Setup} {cf : Nat → Sink.Cfg} {w : Nat → World} {o : Nat → Bool}

/-- **C110**, one call.  Nobody is inside a call of a sink and the workers sleep; thread `t` calls `push`, `flush`, `async_flush` or `rotate` of a
sink -- a multisink, say -- and nobody else runs until the call returns.  Then every sink is as the model with one thread says it is after this
call: same queue, same account, same requests, same text in every file. -/
theorem C110_lone_call (hS : ∀ i, Usual (cf i) → S.leaf i = leafOf (w i) (o i) (cf i)) {s s' : St} (hr : Reach S s) {t : Tid}
    (ht : t ≠ SinkConc.workerTid) {n : Nat} {d : Direct} (hu : ∀ i ∈ Spec.leaves (S.snk n), Usual (cf i)) (hst : AtRest s)
    {k j k' j' : Nat → Nat} {h h' : Heap} (ha : Agree cf w h s k j) {fuel : Nat}
    (hp : performed fuel (S.snk n) d h = some h')
    (hal : Alone S w t { s with todo := upd s.todo t (d.plan S n), said := s.said ++ d.said t n } k j s' k' j') (he : Free s' t) :
    Agree cf w h' s' k' j' :=
  (OneThread.lone_agree hS hr ht hu hst ha hp hal he).1

/-- **C110**, one pass of a worker.  Nobody is inside a call of a sink; the worker of sink `i` wakes up, makes its pass and sleeps again (or ends)
before anybody else runs.  Then every sink is as the model with one thread says it is after a flush of sink `i`. -/
theorem C110_worker_pass (hS : ∀ i, Usual (cf i) → S.leaf i = leafOf (w i) (o i) (cf i)) {s s' : St} (hr : Reach S s) {i : Nat} (hu : Usual (cf i))
    (hst : AtRest s) {k j k' j' : Nat → Nat} {h : Heap} (ha : Agree cf w h s k j) {ch : SinkConc.Ch}
    (hp : (s.leaf i).pc SinkConc.workerTid = .wWait) (hto : ch.timeout = true)
    (hal : Alone S w SinkConc.workerTid { s with leaf := upd s.leaf i (SinkFull.step (S.leaf i).conc (s.leaf i) SinkConc.workerTid ch) } k j s' k' j')
    (he : ∀ n, (s'.leaf n).pc SinkConc.workerTid = .wWait ∨ (s'.leaf n).pc SinkConc.workerTid = .wExit) :
    Agree cf w ((Snk.leaf i).flush h) s' k' j' :=
  OneThread.pass_agree hS hr hu hst ha hp hto hal he

/-- **C110**, any calls and passes, one after the other.  From any moment at which everybody is at rest, calls of sinks made by any threads and
passes of the workers, each over before the next one begins, leave the sinks as the same calls made by one thread do, a pass being a flush. -/
theorem C110_one_by_one (hS : ∀ i, Usual (cf i) → S.leaf i = leafOf (w i) (o i) (cf i)) {s s' : St} {k j k' j' : Nat → Nat}
    {cs : List Event1} (h1 : OneByOne S w s k j cs s' k' j') (hr : Reach S s)
    (hrest : AtRest s)
    (hu : ∀ c ∈ cs, ∀ i ∈ c.sinks S.snk, Usual (cf i)) {h h' : Heap} (ha : Agree cf w h s k j) {fuel : Nat}
    (hp : performedAll fuel S.snk cs h = some h') : Agree cf w h' s' k' j' :=
  OneThread.oneByOne_agree hS h1 hr hrest hu ha hp

theorem init_rest (c : SinkConc.Cfg) (b : Bool) (u : Tid) : (SinkFull.init c b).pc u = .idle ∨ (SinkFull.init c b).pc u = .wWait ∨
    (SinkFull.init c b).pc u = .wExit := by
  unfold SinkFull.init
  dsimp only
  split
  · split
    · exact .inr (.inr rfl)
    · exact .inr (.inl rfl)
  · exact .inl rfl

theorem init_worker (c : SinkConc.Cfg) (b : Bool) : (SinkFull.init c b).pc SinkConc.workerTid = .wWait ∨ (SinkFull.init c b).pc SinkConc.workerTid = .wExit := by
  unfold SinkFull.init
  dsimp only
  rw [if_pos rfl]
  split
  · exact .inr rfl
  · exact .inl rfl

/-- **C110**, from the start: newly constructed sinks agree, so a program that only makes calls of sinks that overlap neither each other nor a pass of a worker does what the model
with one thread says. -/
theorem C110_from_the_start (hS : ∀ i, S.leaf i = leafOf (w i) (o i) (cf i)) {debug : Bool} {ord : List Nat → List Nat} (ho : ∀ l, (ord l).Perm l)
    {s' : St} {k' j' : Nat → Nat} {cs : List Event1} (h1 : OneByOne S w (init S debug ord) (fun _ => 0) (fun _ => 0) cs s' k' j')
    (hu : ∀ c ∈ cs, ∀ i ∈ c.sinks S.snk, Usual (cf i)) {h' : Heap} {fuel : Nat}
    (hp : performedAll fuel S.snk cs ⟨fun i => Leaf.new (cf i) (w i) (o i), false⟩ = some h') : Agree cf w h' s' k' j' :=
  C110_one_by_one (fun i _ => hS i) h1 (.init debug ord ho) (fun i u => init_rest _ _ u) hu
    (fun i => OneThread.same_new _ _ _ _ _ (by rw [hS i]; rfl)) hp

/-- the parameters of a sink of a document -/
def paramsOf (specs : Nat → Yaml.Spec) (i : Nat) : Sink.Cfg := (specs i).cfg.getD Sink.Cfg.nowhere

/-- **C110**, after a configuration document has been applied: calls of the sinks of the document and passes of their workers that do not overlap do what they do in the
program with one thread that has been configured by the same document. -/
theorem C110_document {W : Yaml.World} {F : Nat} {what : Text} {c : Yaml.Configurator} {debug : Bool} {ord : List Nat → List Nat} {b : Bool}
    {r : Yaml.Result} {y : Yaml.St} {E : Whole.Env} {format : System.Conc.Rec → Text} {fmt : System.Conc.Rec → FmtResult}
    (ho : ∀ l, (ord l).Perm l) (hc : Yaml.configure W F what c (Yaml.new debug ord b) = .ok r y) :
    ∃ done, Reach (setupOf E format fmt y.specs) (configured (setupOf E format fmt y.specs) y.sys done) ∧
      ∀ (s' : St) (k' j' : Nat → Nat) (cs : List Event1) (fuel : Nat) (h' : Heap),
        OneByOne (setupOf E format fmt y.specs) E.world (configured (setupOf E format fmt y.specs) y.sys done) (fun _ => 0) (fun _ => 0) cs s' k' j' →
        (∀ x ∈ cs, ∀ i ∈ x.sinks (Whole.tree y.specs), Usual (paramsOf y.specs i)) →
        performedAll fuel (Whole.tree y.specs) cs ⟨fun i => Whole.leafFor E i (y.specs i), false⟩ = some h' →
        Agree (paramsOf y.specs) E.world h' s' k' j' := by
  obtain ⟨done, hr⟩ := (C107_configured (E := E) (format := format) (fmt := fmt) ho hc).1
  refine ⟨done, hr, fun s' k' j' cs fuel h' h1 hu hp => ?_⟩
  refine C110_one_by_one (o := E.opened) (S := setupOf E format fmt y.specs) (fun i hui => ?_) h1 hr (fun i u => init_rest _ _ u) hu (fun i => ?_) hp
  · unfold paramsOf at hui ⊢
    show (match (y.specs i).cfg with | some c => leafOf (E.world i) (E.opened i) c | none => leafNowhere : LeafCfg) = _
    cases h : (y.specs i).cfg with
    | none => rw [h] at hui; exact absurd rfl hui.1
    | some cf => rfl
  · show Same _ _ (Whole.leafFor E i (y.specs i)) (SinkFull.init (match (y.specs i).cfg with | some c => leafOf (E.world i) (E.opened i) c | none => leafNowhere : LeafCfg).conc
      (match (y.specs i).cfg with | some c => leafOf (E.world i) (E.opened i) c | none => leafNowhere : LeafCfg).opened).view 0 0
    unfold Whole.leafFor paramsOf
    cases h : (y.specs i).cfg with
    | none => exact OneThread.same_new _ _ _ _ _ rfl
    | some cf => exact OneThread.same_new _ _ _ _ _ rfl

/-! ### a concrete program -/

/-- every exchange and opening succeeds and a worker that sleeps goes on sleeping -/
def sleepCh : SinkConc.Ch := { SinkConc.calmCh with timeout := false }

/-- the counters after a step of a thread that is at `p` -/
def counted (c : SinkConc.Cfg) (p : SinkFull.PC) (k j : Nat) : Nat × Nat :=
  match p with
  | .casFlush _ => (k + 1, j)
  | .casRotate _ => if c.isFile then (k + 1, j) else (k, j)
  | .reopen _ => (k, j + 1)
  | _ => (k, j)

theorem counted_answers {c : SinkConc.Cfg} {w : World} (h1 : ∀ n, w.casOk n = true) (h2 : ∀ n, w.openOk n = true) (p : SinkFull.PC) (k j : Nat) :
    SinkFull.Answers c w p sleepCh k j (counted c p k j).1 (counted c p k j).2 := by
  cases p
  case casRotate r =>
    unfold SinkFull.Answers counted
    dsimp only
    cases hc : c.isFile with
    | true => exact ⟨(h1 k).symm, rfl, rfl⟩
    | false => exact ⟨rfl, rfl⟩
  case casFlush r => exact ⟨(h1 k).symm, rfl, rfl⟩
  case reopen r => exact ⟨(h2 j).symm, rfl, rfl⟩
  case wWait => exact ⟨rfl, rfl, rfl⟩
  all_goals exact ⟨rfl, rfl⟩

def alonely (c : SinkConc.Cfg) (t : Tid) : Nat → SinkFull.St × Nat × Nat → SinkFull.St × Nat × Nat
  | 0, x => x
  | n + 1, x => alonely c t n (SinkFull.step c x.1 t sleepCh, (counted c (x.1.pc t) x.2.1 x.2.2).1, (counted c (x.1.pc t) x.2.1 x.2.2).2)

structure Sinks where
  leaf : Nat → SinkFull.St
  k : Nat → Nat
  j : Nat → Nat

/-- one call of a sink, 60 steps, alone -/
def serveOne (S : Setup) (w : Nat → World) (t : Tid) (i : Nat) (q : Req) (x : Sinks) : Sinks :=
  let r := alonely (S.leaf i).conc t 60 (SinkFull.setPc (x.leaf i) t (SinkFull.startPC (callNow (w i) (S.leaf i) (x.leaf i) q)), x.k i, x.j i)
  ⟨upd x.leaf i r.1, upd x.k i r.2.1, upd x.j i r.2.2⟩

def serveAll (S : Setup) (w : Nat → World) (t : Tid) : List (Nat × Req) → Sinks → Option Sinks
  | [], x => some x
  | (i, q) :: rest, x =>
    let y := serveOne S w t i q x
    if (y.leaf i).pc t = .idle ∧ (y.leaf i).owner.isNone then serveAll S w t rest y else none

/-- the worker of sink `i` wakes up and makes 60 steps, alone -/
def servePass (S : Setup) (i : Nat) (x : Sinks) : Sinks :=
  let r := alonely (S.leaf i).conc SinkConc.workerTid 60 (SinkFull.step (S.leaf i).conc (x.leaf i) SinkConc.workerTid SinkConc.calmCh, x.k i, x.j i)
  ⟨upd x.leaf i r.1, upd x.k i r.2.1, upd x.j i r.2.2⟩

def serveCalls (S : Setup) (w : Nat → World) : List Event1 → Sinks → Option Sinks
  | [], x => some x
  | .call t n d :: rest, x => if t = SinkConc.workerTid then none else (serveAll S w t (d.plan S n) x).bind (serveCalls S w rest)
  | .pass i :: rest, x =>
    let y := servePass S i x
    if (x.leaf i).pc SinkConc.workerTid = .wWait ∧ (y.leaf i).pc SinkConc.workerTid = .wWait ∧ (y.leaf i).owner.isNone then serveCalls S w rest y else none

section
variable (h1 : ∀ i n, (w i).casOk n = true) (h2 : ∀ i n, (w i).openOk n = true)
include h1 h2

theorem alonely_alone {t : Tid} (i : Nat) (m : Nat) : ∀ (s : St) (k j : Nat → Nat) {s' : St} {k' j' : Nat → Nat},
    Alone S w t { s with leaf := upd s.leaf i (alonely (S.leaf i).conc t m (s.leaf i, k i, j i)).1 } (upd k i (alonely (S.leaf i).conc t m (s.leaf i, k i, j i)).2.1)
      (upd j i (alonely (S.leaf i).conc t m (s.leaf i, k i, j i)).2.2) s' k' j' → Alone S w t s k j s' k' j' := by
  induction m with
  | zero =>
    intro s k j s' k' j' h
    unfold alonely at h
    dsimp only at h
    rw [SinkFull.upd_self, SinkFull.upd_self k i, SinkFull.upd_self j i] at h
    exact h
  | succ m ih =>
    intro s k j s' k' j' h
    refine .leaf i sleepCh _ _ (counted_answers (h1 i) (h2 i) _ _ _) ?_
    refine ih _ _ _ ?_
    simp only [System.upd_same, System.upd_upd]
    exact h

theorem serveAll_alone {t : Tid} (l : List (Nat × Req)) : ∀ (s : St) (k j : Nat → Nat) (y : Sinks), s.todo t = l → (∀ n, (s.leaf n).pc t = .idle) →
    (∀ n, (s.leaf n).owner = none) → serveAll S w t l ⟨s.leaf, k, j⟩ = some y →
    ∃ s', Alone S w t s k j s' y.k y.j ∧ s'.leaf = y.leaf ∧ s'.todo t = [] ∧ (∀ n, (s'.leaf n).pc t = .idle) ∧ (∀ n, (s'.leaf n).owner = none) ∧
      (∀ u, u ≠ t → s'.todo u = s.todo u) ∧ s'.sys = s.sys := by
  induction l with
  | nil =>
    intro s k j y hd hi ho hs
    cases hs
    exact ⟨s, .refl _ _ _, rfl, hd, hi, ho, fun _ _ => rfl, rfl⟩
  | cons iq rest ih =>
    obtain ⟨i, q⟩ := iq
    intro s k j y hd hi ho hs
    unfold serveAll at hs
    dsimp only at hs
    split at hs
    · rename_i hc
      obtain ⟨c1, c2⟩ := hc
      have c1' : (alonely (S.leaf i).conc t 60 (SinkFull.setPc (s.leaf i) t (SinkFull.startPC (callNow (w i) (S.leaf i) (s.leaf i) q)), k i, j i)).1.pc t = .idle := by
        have : (upd s.leaf i (alonely (S.leaf i).conc t 60 (SinkFull.setPc (s.leaf i) t (SinkFull.startPC (callNow (w i) (S.leaf i) (s.leaf i) q)), k i, j i)).1 i).pc t = .idle := c1
        rw [System.upd_same] at this; exact this
      have c2' : (alonely (S.leaf i).conc t 60 (SinkFull.setPc (s.leaf i) t (SinkFull.startPC (callNow (w i) (S.leaf i) (s.leaf i) q)), k i, j i)).1.owner = none := by
        have : (upd s.leaf i (alonely (S.leaf i).conc t 60 (SinkFull.setPc (s.leaf i) t (SinkFull.startPC (callNow (w i) (S.leaf i) (s.leaf i) q)), k i, j i)).1 i).owner.isNone := c2
        rw [System.upd_same] at this; exact Option.isNone_iff_eq_none.1 this
      obtain ⟨s', ha, hl, ht, hi', ho', hu, hsys⟩ := ih
        { s with todo := upd s.todo t rest,
                 leaf := upd s.leaf i (alonely (S.leaf i).conc t 60 (SinkFull.setPc (s.leaf i) t (SinkFull.startPC (callNow (w i) (S.leaf i) (s.leaf i) q)), k i, j i)).1 }
        _ _ y (System.upd_same _ _ _)
        (fun n => by
          show (upd s.leaf i _ n).pc t = _
          by_cases e : n = i
          · subst e; rw [System.upd_same]; exact c1'
          · rw [System.upd_other _ _ e]; exact hi n)
        (fun n => by
          show (upd s.leaf i _ n).owner = _
          by_cases e : n = i
          · subst e; rw [System.upd_same]; exact c2'
          · rw [System.upd_other _ _ e]; exact ho n) hs
      refine ⟨s', ?_, hl, ht, hi', ho', fun u hu' => ?_, hsys⟩
      · refine .enter i q rest hd (fun n => .inl (hi n)) (hi i) (ho i) (alonely_alone h1 h2 i 60 _ _ _ ?_)
        simp only [System.upd_same, System.upd_upd]
        exact ha
      · rw [hu u hu']; exact System.upd_other _ _ hu'
    · cases hs

theorem serveCalls_oneByOne (cs : List Event1) : ∀ (s : St) (k j : Nat → Nat) (y : Sinks), (∀ u, s.todo u = []) →
    (∀ u, s.sys.pc u = .idle) → (∀ n u, u ≠ SinkConc.workerTid → (s.leaf n).pc u = .idle) → (∀ n, (s.leaf n).owner = none) →
    (∀ n, (s.leaf n).pc SinkConc.workerTid = .wWait ∨ (s.leaf n).pc SinkConc.workerTid = .wExit) →
    serveCalls S w cs ⟨s.leaf, k, j⟩ = some y → ∃ s', OneByOne S w s k j cs s' y.k y.j ∧ s'.leaf = y.leaf := by
  induction cs with
  | nil => intro s k j y _ _ _ _ _ hs; cases hs; exact ⟨s, .nil _ _ _, rfl⟩
  | cons c rest ih =>
    cases c with
    | call t n d =>
      intro s k j y hd hsys hi ho hw hs
      unfold serveCalls at hs
      split at hs
      · cases hs
      · rename_i ht
        obtain ⟨x, hx, hy⟩ := Option.bind_eq_some_iff.1 hs
        obtain ⟨s1, ha, hl, htd, hi1, ho1, hu, hs1⟩ := serveAll_alone h1 h2 (d.plan S n) { s with todo := upd s.todo t (d.plan S n), said := s.said ++ d.said t n } k j x
          (System.upd_same _ _ _) (fun m => hi m t ht) ho hx
        have hx' : x = ⟨s1.leaf, x.k, x.j⟩ := by rw [hl]
        rw [hx'] at hy
        obtain ⟨s', hone, hl'⟩ := ih s1 x.k x.j y
          (fun u => by
            by_cases e : u = t
            · subst e; exact htd
            · rw [hu u e]; exact (System.upd_other _ _ e).trans (hd u))
          (fun u => by rw [hs1]; exact hsys u)
          (fun m u hwk => by
            by_cases e : u = t
            · subst e; exact hi1 m
            · rw [OneThread.alone_others ha m e]; exact hi m u hwk) ho1
          (fun m => by rw [OneThread.alone_others ha m (Ne.symm ht)]; exact hw m) hy
        exact ⟨s', .call t n d ht ⟨hd t, fun m => .inl (hi m t ht)⟩ (hsys t) ha ⟨htd, fun m => .inl (hi1 m)⟩ hone, hl'⟩
    | pass i =>
      intro s k j y hd hsys hi ho hw hs
      unfold serveCalls at hs
      dsimp only at hs
      split at hs
      · rename_i hc
        obtain ⟨c0, c1, c2⟩ := hc
        have c1' : (alonely (S.leaf i).conc SinkConc.workerTid 60 (SinkFull.step (S.leaf i).conc (s.leaf i) SinkConc.workerTid SinkConc.calmCh, k i, j i)).1.pc SinkConc.workerTid = .wWait := by
          have : (upd s.leaf i (alonely (S.leaf i).conc SinkConc.workerTid 60 (SinkFull.step (S.leaf i).conc (s.leaf i) SinkConc.workerTid SinkConc.calmCh, k i, j i)).1 i).pc SinkConc.workerTid = .wWait := c1
          rw [System.upd_same] at this; exact this
        have c2' : (alonely (S.leaf i).conc SinkConc.workerTid 60 (SinkFull.step (S.leaf i).conc (s.leaf i) SinkConc.workerTid SinkConc.calmCh, k i, j i)).1.owner = none := by
          have : (upd s.leaf i (alonely (S.leaf i).conc SinkConc.workerTid 60 (SinkFull.step (S.leaf i).conc (s.leaf i) SinkConc.workerTid SinkConc.calmCh, k i, j i)).1 i).owner.isNone := c2
          rw [System.upd_same] at this; exact Option.isNone_iff_eq_none.1 this
        have ha : Alone S w SinkConc.workerTid { s with leaf := upd s.leaf i (SinkFull.step (S.leaf i).conc (s.leaf i) SinkConc.workerTid SinkConc.calmCh) } k j
            { s with leaf := upd s.leaf i (alonely (S.leaf i).conc SinkConc.workerTid 60 (SinkFull.step (S.leaf i).conc (s.leaf i) SinkConc.workerTid SinkConc.calmCh, k i, j i)).1 }
            (servePass S i ⟨s.leaf, k, j⟩).k (servePass S i ⟨s.leaf, k, j⟩).j := by
          refine alonely_alone h1 h2 i 60 _ _ _ ?_
          simp only [System.upd_same, System.upd_upd]
          exact .refl _ _ _
        have hww : ∀ n, ((upd s.leaf i (alonely (S.leaf i).conc SinkConc.workerTid 60 (SinkFull.step (S.leaf i).conc (s.leaf i) SinkConc.workerTid SinkConc.calmCh, k i, j i)).1) n).pc SinkConc.workerTid = .wWait ∨
            ((upd s.leaf i (alonely (S.leaf i).conc SinkConc.workerTid 60 (SinkFull.step (S.leaf i).conc (s.leaf i) SinkConc.workerTid SinkConc.calmCh, k i, j i)).1) n).pc SinkConc.workerTid = .wExit := fun n => by
          by_cases e : n = i
          · subst e; rw [System.upd_same]; exact .inl c1'
          · rw [System.upd_other _ _ e]; exact hw n
        obtain ⟨s', hone, hl'⟩ := ih { s with leaf := upd s.leaf i (alonely (S.leaf i).conc SinkConc.workerTid 60 (SinkFull.step (S.leaf i).conc (s.leaf i) SinkConc.workerTid SinkConc.calmCh, k i, j i)).1 }
          _ _ y hd hsys
          (fun m u hu => by
            have h3 := OneThread.alone_others ha m hu
            refine h3.trans ?_
            show ((upd s.leaf i _) m).pc u = _
            by_cases e : m = i
            · subst e; rw [System.upd_same, SinkFull.step_pc_other _ _ _ hu]; exact hi m u hu
            · rw [System.upd_other _ _ e]; exact hi m u hu)
          (fun m => by
            show (upd s.leaf i _ m).owner = _
            by_cases e : m = i
            · subst e; rw [System.upd_same]; exact c2'
            · rw [System.upd_other _ _ e]; exact ho m) hww hs
        exact ⟨s', .pass i SinkConc.calmCh c0 rfl ha hww hone, hl'⟩
      · cases hs
end

/-- a file without latency and a file with latency behind a multisink -/
def pairSetup : Setup where
  snk k := if k = 0 then .multi .trace [.leaf 0, .leaf 1] else .leaf 1
  leaf i := leafOf Sink.exampleWorld true (pairCfg i)
  format r := r.text
  fmt r := .ok r.text
where
  pairCfg : Nat → Sink.Cfg := fun i => Sink.exampleFile .info (if i = 0 then 0 else 1000)

/-- thread 1 pushes to both, thread 2 flushes both, thread 1 asks for a rotation and flushes the second one, thread 1 pushes to both again and the
worker of the second one makes a pass -/
def pairCalls : List Event1 :=
  [.call 1 0 (.push ⟨['n'], .info, [], .ok ['a']⟩), .call 2 0 .flush, .call 1 1 .rotate, .call 2 1 (.push ⟨['n'], .debug, [], .ok ['b']⟩), .call 1 1 .flush,
    .call 1 0 (.push ⟨['n'], .info, [], .ok ['c']⟩), .pass 1]

def pairSinks : Option Sinks := serveCalls pairSetup (fun _ => Sink.exampleWorld) pairCalls
  ⟨fun i => SinkFull.init (pairSetup.leaf i).conc (pairSetup.leaf i).opened, fun _ => 0, fun _ => 0⟩

def pairText (x : Sinks) (i : Nat) : List Text := (x.leaf i).gens ++ [(x.leaf i).dev ++ (x.leaf i).sbuf]

theorem pairSinks_some : (pairSinks.map fun x => (pairText x 0, pairText x 1)) =
    some (["24.01.02 03:04:05.000000  Info      n  a\n24.01.02 03:04:05.000000  Info      n  c\n".toList],
      ["24.01.02 03:04:05.000000  Info      n  a\n".toList, "24.01.02 03:04:05.000000  Info      n  c\n".toList]) := by
  decide +kernel

def pairStart : St := init pairSetup false id

/-- the same calls in the model with one thread -/
def pairHeap : Option Heap := performedAll 2 pairSetup.snk pairCalls ⟨fun i => Leaf.new (pairSetup.pairCfg i) Sink.exampleWorld true, false⟩

theorem pairHeap_some : (pairHeap.map fun h => ((h.leaf 0).written, (h.leaf 1).written, (h.leaf 1).gen)) =
    some ([(0, "24.01.02 03:04:05.000000  Info      n  a\n".toList), (0, "24.01.02 03:04:05.000000  Info      n  c\n".toList)],
      [(0, "24.01.02 03:04:05.000000  Info      n  a\n".toList), (1, "24.01.02 03:04:05.000000  Info      n  c\n".toList)], 1) := by
  decide +kernel

theorem pair_usual : ∀ c ∈ pairCalls, ∀ i ∈ c.sinks pairSetup.snk, Usual (pairSetup.pairCfg i) := by
  intro c _ i _
  unfold Usual pairSetup.pairCfg
  exact ⟨(by intro h; cases h), (by show 2 ^ 22 < 2 ^ 62; decide), (by show 0 < 2048; decide)⟩

/-! The hypotheses of `C110_from_the_start` (hence of `C110_one_by_one`): two threads call a multisink and a file sink one after the other and a worker
makes a pass; the files have the contents the model with one thread gives them. -/
example : ∃ (s' : St) (k' j' : Nat → Nat) (h' : Heap), OneByOne pairSetup (fun _ => Sink.exampleWorld) pairStart (fun _ => 0) (fun _ => 0) pairCalls s' k' j' ∧
    pairHeap = some h' ∧ Agree pairSetup.pairCfg (fun _ => Sink.exampleWorld) h' s' k' j' ∧
    (s'.leaf 1).gens = ["24.01.02 03:04:05.000000  Info      n  a\n".toList] := by
  obtain ⟨y, hy, hf⟩ := Option.map_eq_some_iff.1 pairSinks_some
  obtain ⟨h', hh, _⟩ := Option.map_eq_some_iff.1 pairHeap_some
  obtain ⟨s', hone, hl⟩ := serveCalls_oneByOne (S := pairSetup) (w := fun _ => Sink.exampleWorld) (fun _ _ => rfl) (fun _ _ => rfl) pairCalls pairStart (fun _ => 0) (fun _ => 0) y
    (fun _ => rfl) (fun _ => rfl) (fun n u hu => by show (if u = SinkConc.workerTid then _ else _) = _; rw [if_neg hu]) (fun _ => rfl) (fun n => init_worker _ _) hy
  refine ⟨s', y.k, y.j, h', hone, hh, C110_from_the_start (fun _ => rfl) (fun l => List.Perm.refl _) hone pair_usual hh, ?_⟩
  have : pairText y 1 = ["24.01.02 03:04:05.000000  Info      n  a\n".toList, "24.01.02 03:04:05.000000  Info      n  c\n".toList] := congrArg Prod.snd hf
  have h2 := List.append_inj_left' (show (y.leaf 1).gens ++ [_] = ["24.01.02 03:04:05.000000  Info      n  a\n".toList] ++ ["24.01.02 03:04:05.000000  Info      n  c\n".toList] from this) rfl
  rw [hl]; exact h2

def docCalls : List Event1 := [.call 1 1 (.push ⟨['n'], .info, [], .ok ['a']⟩), .call 2 1 .flush]

def docSinks : Option Sinks := serveCalls docS fileEnv.world docCalls
  ⟨fun i => SinkFull.init (docS.leaf i).conc (docS.leaf i).opened, fun _ => 0, fun _ => 0⟩

theorem docSinks_some : (docSinks.map fun x => (pairText x 1)).isSome = true := by decide +kernel

def docHeap : Option Heap := performedAll 2 (Whole.tree docY.specs) docCalls ⟨fun i => Whole.leafFor fileEnv i (docY.specs i), false⟩

theorem docHeap_some : (docHeap.map fun h => (h.leaf 1).written.length) = some 1 := by decide +kernel

/-! the hypotheses of `C110_document` -/
example : ∃ (done : List System.Conc.Done) (s' : St) (k' j' : Nat → Nat) (h' : Heap),
    OneByOne docS fileEnv.world (configured docS docY.sys done) (fun _ => 0) (fun _ => 0) docCalls s' k' j' ∧
    docHeap = some h' ∧ Agree (paramsOf docY.specs) fileEnv.world h' s' k' j' := by
  obtain ⟨done, _, hd⟩ := C110_document (E := fileEnv) (format := fun r => r.text) (fmt := fun r => .ok r.text) (fun l => List.Perm.refl _) doc_conf
  obtain ⟨y, hy, _⟩ := Option.map_eq_some_iff.1 (Option.isSome_iff_exists.1 docSinks_some).choose_spec
  obtain ⟨h', hh, _⟩ := Option.map_eq_some_iff.1 docHeap_some
  obtain ⟨s', hone, hl⟩ := serveCalls_oneByOne (S := docS) (w := fileEnv.world) (fun _ _ => rfl) (fun _ _ => rfl) docCalls (configured docS docY.sys done) (fun _ => 0) (fun _ => 0) y
    (fun _ => rfl) (fun _ => rfl) (fun n u hu => by show (if u = SinkConc.workerTid then _ else _) = _; rw [if_neg hu]) (fun _ => rfl) (fun n => init_worker _ _) hy
  refine ⟨done, s', y.k, y.j, h', hone, hh, hd s' y.k y.j docCalls 2 h' hone ?_ hh⟩
  have hp : paramsOf docY.specs 1 = docFile := by unfold paramsOf; rw [doc_facts.2.2.2.1]; rfl
  have hl : Spec.leaves (Whole.tree docY.specs 1) = [1] := by decide +kernel
  intro x hx i hi
  have : x.sinks (Whole.tree docY.specs) = [1] := by
    rcases List.mem_cons.1 hx with rfl | hx
    · exact hl
    · rw [List.mem_singleton.1 hx]; exact hl
  rw [this] at hi
  rw [List.mem_singleton.1 hi, hp]
  exact ⟨(by intro h; cases h), (by decide), (by decide)⟩

end Many
end Soralog
