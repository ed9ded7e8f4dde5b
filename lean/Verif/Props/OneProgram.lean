import Verif.Proofs.OneProgram
import Verif.Props.OneThread
/-!
# C111: a program whose calls do not overlap behaves as a program with one thread
-/
namespace Soralog
namespace Many
open Sink (World Heap Snk Leaf)
open OneThread (Same)

variable {E : Whole.Env} {format : System.Conc.Rec → Text} {fmt : System.Conc.Rec → FmtResult} {F : Nat}

theorem setup_leafOf (specs : Nat → Yaml.Spec) (i : Nat) (hu : Usual (paramsOf specs i)) :
    (setupOf E format fmt specs).leaf i = leafOf (E.world i) (E.opened i) (paramsOf specs i) := by
  unfold paramsOf at hu ⊢
  show (match (specs i).cfg with | some c => leafOf (E.world i) (E.opened i) c | none => leafNowhere : LeafCfg) = _
  cases h : (specs i).cfg with
  | none => rw [h] at hu; exact absurd rfl hu.1
  | some cf => rfl

theorem setup_ownLevel (specs : Nat → Yaml.Spec) (i : Nat) : (paramsOf specs i).level = ((setupOf E format fmt specs).leaf i).level := by
  unfold paramsOf
  show _ = (match (specs i).cfg with | some c => leafOf (E.world i) (E.opened i) c | none => leafNowhere : LeafCfg).level
  cases h : (specs i).cfg with
  | none => rfl
  | some cf => rfl

/-- **C111**, one call: any call of the program with one thread that creates no sink -- a log call through any logger, a flush, a rotation, getting
or dropping a logger (with the warnings this may log), making a group, changing levels, sinks and parents.  Nobody is inside a call of a sink;
thread `t` makes the call and nobody else runs until it is over.  Then the logging system is as the model with one thread says it is after this
call, and so is every sink. -/
theorem C111_one_call {x x' : Whole.State} {s s0 s' : St} (hr : Reach (setupOf E format fmt x.st.specs) s) {t : Tid} (ht : t ≠ SinkConc.workerTid)
    (hst : AtRest s) (hf : Free s t) (hi : s.sys.pc t = .idle) {k j k' j' : Nat → Nat} (hs : s.sys.sys = x.st.sys)
    (ha : Agree (paramsOf x.st.specs) E.world x.heap s k j) {c : Whole.Call} (hb : Begins (setupOf E format fmt x.st.specs) F t s c s0)
    (hu : ∀ q ∈ s0.todo t, Usual (paramsOf x.st.specs q.1))
    (hal : AloneAll (setupOf E format fmt x.st.specs) E.world (fun i => Usual (paramsOf x.st.specs i)) t s0 k j s' k' j')
    (he : Free s' t) (hid : s'.sys.pc t = .idle) (hx : oneTurn E F (.call t c) x = some x') :
    s'.sys.sys = x'.st.sys ∧ Agree (paramsOf x.st.specs) E.world x'.heap s' k' j' := by
  obtain ⟨hq, hy, _⟩ := OneThread.call_turn (o := E.opened) (fun i => setup_leafOf x.st.specs i) (setup_ownLevel x.st.specs) (fun _ => rfl) ht
    ⟨hr, hst, ha⟩ hs hf hi hb hu hal he hid hx
  exact ⟨hy, hq.agree⟩

/-- **C111**, any calls and passes, one after the other: from any moment at which everybody is at rest and both models show the same, calls made by
any threads and passes of workers, each over before the next one begins, leave the logging system and the sinks as the same calls made by one
thread do. -/
theorem C111_one_by_one {x x' : Whole.State} {s s' : St} {k j k' j' : Nat → Nat} {cs : List Turn}
    (h1 : Turns (setupOf E format fmt x.st.specs) E.world (fun i => Usual (paramsOf x.st.specs i)) F s k j cs s' k' j')
    (hr : Reach (setupOf E format fmt x.st.specs) s) (hst : AtRest s) (hs : s.sys.sys = x.st.sys) (ha : Agree (paramsOf x.st.specs) E.world x.heap s k j)
    (hx : allTurns E F cs x = some x') : s'.sys.sys = x'.st.sys ∧ Agree (paramsOf x.st.specs) E.world x'.heap s' k' j' := by
  obtain ⟨hq, hy⟩ := OneThread.turns_agree (o := E.opened) (fun i => setup_leafOf x.st.specs i) (setup_ownLevel x.st.specs) h1 (fun _ => rfl) ⟨hr, hst, ha⟩ hs hx
  exact ⟨hy, hq.agree⟩

theorem conf_heap {W : Yaml.World} {what : Text} {c : Yaml.Configurator} {debug : Bool} {ord : List Nat → List Nat} {b : Bool} {r : Yaml.Result} {y : Yaml.St}
    (hc : Yaml.configure W F what c (Yaml.new debug ord b) = .ok r y) (i : Nat) :
    (Whole.construct E (Whole.new E debug ord b).st.sys.nsinks y (Whole.new E debug ord b).heap).leaf i = Whole.leafFor E i (y.specs i) := by
  have h0 : Yaml.SinksOk (Yaml.new debug ord b) := by
    refine ⟨fun n k hf => ?_, fun _ _ => rfl, fun k lv subs h => by cases h⟩
    simp only [Yaml.new, System.new] at hf ⊢
    revert hf
    simp only [System.Table.find, List.find?]
    split
    · intro e; cases e; decide
    · intro e; cases e
  have h1 := Yaml.sinksGrow_configure hc h0
  show (if _ ∧ _ then _ else Whole.leafFor E i .nowhere) = _
  split
  · rfl
  · rename_i hn
    have hsp : y.specs i = .nowhere := by
      by_cases hi : i < (Whole.new E debug ord b).st.sys.nsinks
      · exact h1.2.2 i hi
      · exact h1.1.beyond i (Nat.not_lt.1 fun h => hn ⟨Nat.not_lt.1 hi, h⟩)
    rw [hsp]

/-- **C111**, after a configuration document has been applied: a program of several threads whose calls do not overlap does what the program with
one thread does that has been configured by the same document and makes the same calls. -/
theorem C111_document {what : Text} {c : Yaml.Configurator} {debug : Bool} {ord : List Nat → List Nat} {b : Bool} (ho : ∀ l, (ord l).Perm l)
    {x : Whole.State} (hc : Whole.step E F (Whole.new E debug ord b) (.configure what c) = .ok x) :
    ∃ done, Reach (setupOf E format fmt x.st.specs) (configured (setupOf E format fmt x.st.specs) x.st.sys done) ∧
      ∀ (s' : St) (k' j' : Nat → Nat) (cs : List Turn) (x' : Whole.State),
        Turns (setupOf E format fmt x.st.specs) E.world (fun i => Usual (paramsOf x.st.specs i)) F
          (configured (setupOf E format fmt x.st.specs) x.st.sys done) (fun _ => 0) (fun _ => 0) cs s' k' j' →
        allTurns E F cs x = some x' → s'.sys.sys = x'.st.sys ∧ Agree (paramsOf x.st.specs) E.world x'.heap s' k' j' := by
  unfold Whole.step at hc
  dsimp only at hc
  cases hy : Yaml.configure E.W F what c (Whole.new E debug ord b).st with
  | ok r y =>
    rw [hy] at hc
    cases hc
    obtain ⟨done, hr⟩ := (C107_configured (E := E) (format := format) (fmt := fmt) ho hy).1
    refine ⟨done, hr, fun s' k' j' cs x' h1 hx => ?_⟩
    refine C111_one_by_one (x := ⟨y, Whole.construct E (Whole.new E debug ord b).st.sys.nsinks y (Whole.new E debug ord b).heap⟩) h1 hr
      (fun i u => init_rest _ _ u) rfl (fun i => ?_) hx
    rw [show (⟨y, Whole.construct E (Whole.new E debug ord b).st.sys.nsinks y (Whole.new E debug ord b).heap⟩ : Whole.State).heap =
      Whole.construct E (Whole.new E debug ord b).st.sys.nsinks y (Whole.new E debug ord b).heap from rfl, conf_heap hy i]
    show Same _ _ (Whole.leafFor E i (y.specs i)) (SinkFull.init (match (y.specs i).cfg with | some c => leafOf (E.world i) (E.opened i) c | none => leafNowhere : LeafCfg).conc
      (match (y.specs i).cfg with | some c => leafOf (E.world i) (E.opened i) c | none => leafNowhere : LeafCfg).opened).view 0 0
    unfold Whole.leafFor paramsOf
    cases h : (y.specs i).cfg with
    | none => exact OneThread.same_new _ _ _ _ _ rfl
    | some cf => exact OneThread.same_new _ _ _ _ _ rfl
  | _ => rw [hy] at hc; cases hc

/-! ### a concrete program -/

/-- calls of a concrete program -/
inductive Cmd where
  | log (t : Tid) (i : Nat) (r : System.Conc.Rec)
  | system (t : Tid) (op : System.Op)
  | pass (i : Nat)

def Cmd.turn (S : Setup) : Cmd → Turn
  | .log t i r => .call t (.log i r.level (S.format r) (S.fmt r))
  | .system t op => .call t (.system op)
  | .pass i => .pass i

structure Run where
  st : St
  k : Nat → Nat
  j : Nat → Nat

/-- the thread makes the calls of sinks it has to make, then its next step in the logging system, and so on until it is in no call -/
def goAlone (S : Setup) (w : Nat → World) (use : Nat → Bool) (t : Tid) : Nat → Run → Option Run
  | 0, _ => none
  | n + 1, x =>
    if (x.st.todo t).all (fun q => use q.1) = true then
      (serveAll S w t (x.st.todo t) ⟨x.st.leaf, x.k, x.j⟩).bind fun y =>
        let s1 : St := { x.st with leaf := y.leaf, todo := upd x.st.todo t [] }
        if s1.sys.pc t = .idle then some ⟨s1, y.k, y.j⟩ else goAlone S w use t n ⟨s1.after S t (System.Conc.step s1.sys t), y.k, y.j⟩
    else none

def oneCmd (S : Setup) (w : Nat → World) (use : Nat → Bool) (F : Nat) (x : Run) : Cmd → Option Run
  | .log t i r =>
    if t ≠ SinkConc.workerTid ∧ x.st.sys.pc t = .idle ∧ i < x.st.sys.sys.nloggers ∧ x.st.sys.sys.alive i = true then
      goAlone S w use t 9 ⟨x.st.after S t (x.st.sys.goto t (.log1 i r)), x.k, x.j⟩
    else none
  | .system t op =>
    if t ≠ SinkConc.workerTid ∧ x.st.sys.pc t = .idle ∧ System.Conc.isMakeGroup op = false then
      match System.step F x.st.sys.sys op with
      | .ret v sys' => if sys'.nsinks = x.st.sys.sys.nsinks then goAlone S w use t 9 ⟨x.st.after S t (x.st.sys.finish t sys' op (.ret v)), x.k, x.j⟩ else none
      | _ => none
    else none
  | .pass i =>
    let y := servePass S i ⟨x.st.leaf, x.k, x.j⟩
    if use i = true ∧ (x.st.leaf i).pc SinkConc.workerTid = .wWait ∧ (y.leaf i).pc SinkConc.workerTid = .wWait ∧ (y.leaf i).owner.isNone then
      some ⟨{ x.st with leaf := y.leaf }, y.k, y.j⟩
    else none

def allCmds (S : Setup) (w : Nat → World) (use : Nat → Bool) (F : Nat) : List Cmd → Run → Option Run
  | [], x => some x
  | c :: rest, x => (oneCmd S w use F x c).bind (allCmds S w use F rest)

/-- everybody is at rest and no sink is being destroyed -/
structure Calm1 (s : St) : Prop where
  todo : ∀ u, s.todo u = []
  idle : ∀ n u, u ≠ SinkConc.workerTid → (s.leaf n).pc u = .idle
  owner : ∀ n, (s.leaf n).owner = none
  worker : ∀ n, (s.leaf n).pc SinkConc.workerTid = .wWait ∨ (s.leaf n).pc SinkConc.workerTid = .wExit

/-- the same inside a call of `t` -/
structure Calm2 (s : St) (t : Tid) : Prop where
  todo : ∀ u, u ≠ t → s.todo u = []
  idle : ∀ n u, u ≠ SinkConc.workerTid → (s.leaf n).pc u = .idle
  owner : ∀ n, (s.leaf n).owner = none
  worker : ∀ n, (s.leaf n).pc SinkConc.workerTid = .wWait ∨ (s.leaf n).pc SinkConc.workerTid = .wExit

theorem Alone.all {S : Setup} {w : Nat → World} {use : Nat → Prop} {t : Tid} {s s1 s' : St} {k j k1 j1 k' j' : Nat → Nat} (h : Alone S w t s k j s1 k1 j1)
    (h2 : AloneAll S w use t s1 k1 j1 s' k' j') : AloneAll S w use t s k j s' k' j' := by
  induction h with
  | refl => exact h2
  | enter i q rest hd hq hi ho _ ih => exact .enter i q rest hd hq hi ho (ih h2)
  | leaf i ch ki ji ha _ ih => exact .leaf i ch ki ji ha (ih h2)

theorem alone_said {S : Setup} {w : Nat → World} {t : Tid} {s s' : St} {k j k' j' : Nat → Nat} (h : Alone S w t s k j s' k' j') : s'.said = s.said := by
  induction h with
  | refl => rfl
  | enter i q rest hd hq hi ho _ ih => exact ih
  | leaf i ch ki ji ha _ ih => exact ih

section
variable {S : Setup} {w : Nat → World} {use : Nat → Bool} (h1 : ∀ i n, (w i).casOk n = true) (h2 : ∀ i n, (w i).openOk n = true)
include h1 h2

theorem goAlone_alone {t : Tid} (ht : t ≠ SinkConc.workerTid) (n : Nat) : ∀ {x y : Run}, Calm2 x.st t → goAlone S w use t n x = some y →
    AloneAll S w (fun i => use i = true) t x.st x.k x.j y.st y.k y.j ∧ Calm1 y.st ∧ y.st.sys.pc t = .idle ∧ ∀ q ∈ x.st.todo t, use q.1 = true := by
  induction n with
  | zero => intro x y _ h; cases h
  | succ n ih =>
    intro x y hc h
    unfold goAlone at h
    split at h
    · rename_i hu
      obtain ⟨z, hz, hy⟩ := Option.bind_eq_some_iff.1 h
      obtain ⟨s1, ha, hl, htd, hi1, ho1, hto, hs1⟩ := serveAll_alone h1 h2 (x.st.todo t) x.st x.k x.j z rfl (fun m => hc.idle m t ht) hc.owner hz
      have he : s1 = { x.st with leaf := z.leaf, todo := upd x.st.todo t [] } := by
        have hsaid := alone_said ha
        have htodo : s1.todo = upd x.st.todo t [] := by
          funext u
          by_cases e : u = t
          · subst e; rw [htd, System.upd_same]
          · rw [hto u e, System.upd_other _ _ e]
        cases s1
        simp only at hl hs1 hsaid htodo
        subst hl hs1 hsaid htodo
        rfl
      have hcalm : Calm2 s1 t := ⟨fun u hu => by rw [hto u hu]; exact hc.todo u hu, fun m u hu => by
          by_cases e : u = t
          · subst e; exact hi1 m
          · rw [OneThread.alone_others ha m e]; exact hc.idle m u hu, ho1, fun m => by
          rw [OneThread.alone_others ha m (Ne.symm ht)]; exact hc.worker m⟩
      have hy : (if s1.sys.pc t = .idle then some ⟨s1, z.k, z.j⟩ else goAlone S w use t n ⟨s1.after S t (System.Conc.step s1.sys t), z.k, z.j⟩) = some y := by
        rw [he]; exact hy
      refine (fun (hk : AloneAll S w (fun i => use i = true) t x.st x.k x.j y.st y.k y.j ∧ Calm1 y.st ∧ y.st.sys.pc t = .idle) =>
        ⟨hk.1, hk.2.1, hk.2.2, fun q hq => by have := List.all_eq_true.1 hu q hq; exact this⟩) ?_
      split at hy
      · rename_i hp
        cases hy
        refine ⟨ha.all (.refl _ _ _), ⟨fun u => ?_, hcalm.idle, ho1, hcalm.worker⟩, hp⟩
        by_cases e : u = t
        · subst e; exact htd
        · exact hcalm.todo u e
      · rename_i hp
        have hf : Free s1 t := ⟨htd, fun m => .inl (hi1 m)⟩
        obtain ⟨ha2, hc2, hp2, hu2⟩ := ih (x := ⟨s1.after S t (System.Conc.step s1.sys t), z.k, z.j⟩)
          ⟨fun u hu => by show upd s1.todo t _ u = _; rw [System.upd_other _ _ hu]; exact hcalm.todo u hu, hcalm.idle, hcalm.owner, hcalm.worker⟩ hy
        exact ⟨ha.all (.system hf hp hu2 ha2), hc2, hp2⟩
    · cases h

theorem oneCmd_turn {x y : Run} {F : Nat} {c : Cmd} (hc : Calm1 x.st) (h : oneCmd S w use F x c = some y) : Calm1 y.st ∧
    ∀ {s' : St} {k' j' : Nat → Nat} {cs : List Turn}, Turns S w (fun i => use i = true) F y.st y.k y.j cs s' k' j' →
      Turns S w (fun i => use i = true) F x.st x.k x.j (c.turn S :: cs) s' k' j' := by
  have hafter : ∀ (t : Tid) (sys' : System.Conc.St), Calm2 (x.st.after S t sys') t := fun t sys' =>
    ⟨fun u hu => by show upd x.st.todo t _ u = _; rw [System.upd_other _ _ hu]; exact hc.todo u, hc.idle, hc.owner, hc.worker⟩
  cases c with
  | log t i r =>
    unfold oneCmd at h
    dsimp only at h
    split at h
    · rename_i hh
      obtain ⟨ht, hi, hn, ha⟩ := hh
      obtain ⟨hal, hcal, hp, hu⟩ := goAlone_alone h1 h2 ht 9 (hafter t _) h
      exact ⟨hcal, fun hr => .call t _ ht ⟨hc.todo t, fun m => .inl (hc.idle m t ht)⟩ hi (.log i r hn ha) hu hal
        ⟨hcal.todo t, fun m => .inl (hcal.idle m t ht)⟩ hp hr⟩
    · cases h
  | system t op =>
    unfold oneCmd at h
    dsimp only at h
    split at h
    · rename_i hh
      obtain ⟨ht, hi, hm⟩ := hh
      split at h
      · rename_i v sys' hs
        split at h
        · rename_i hn
          obtain ⟨hal, hcal, hp, hu⟩ := goAlone_alone h1 h2 ht 9 (hafter t _) h
          exact ⟨hcal, fun hr => .call t _ ht ⟨hc.todo t, fun m => .inl (hc.idle m t ht)⟩ hi (.system op v sys' hm hs hn) hu hal
            ⟨hcal.todo t, fun m => .inl (hcal.idle m t ht)⟩ hp hr⟩
        · cases h
      · cases h
    · cases h
  | pass i =>
    unfold oneCmd at h
    dsimp only at h
    split at h
    · rename_i hh
      obtain ⟨c0, c1, c2, c3⟩ := hh
      cases h
      have ha : Alone S w SinkConc.workerTid { x.st with leaf := upd x.st.leaf i (SinkFull.step (S.leaf i).conc (x.st.leaf i) SinkConc.workerTid SinkConc.calmCh) } x.k x.j
          { x.st with leaf := (servePass S i ⟨x.st.leaf, x.k, x.j⟩).leaf } (servePass S i ⟨x.st.leaf, x.k, x.j⟩).k (servePass S i ⟨x.st.leaf, x.k, x.j⟩).j := by
        refine alonely_alone h1 h2 i 60 _ _ _ ?_
        simp only [System.upd_same, System.upd_upd]
        exact .refl _ _ _
      have hleaf : ∀ m, m ≠ i → (servePass S i ⟨x.st.leaf, x.k, x.j⟩).leaf m = x.st.leaf m := fun m e => System.upd_other _ _ e
      have hww : ∀ m, ((servePass S i ⟨x.st.leaf, x.k, x.j⟩).leaf m).pc SinkConc.workerTid = .wWait ∨
          ((servePass S i ⟨x.st.leaf, x.k, x.j⟩).leaf m).pc SinkConc.workerTid = .wExit := fun m => by
        by_cases e : m = i
        · subst e; exact .inl c2
        · rw [hleaf m e]; exact hc.worker m
      refine ⟨⟨hc.todo, fun m u hu => ?_, fun m => ?_, hww⟩, fun hr => .pass i SinkConc.calmCh c0 c1 rfl ha hww hr⟩
      · refine (OneThread.alone_others ha m hu).trans ?_
        show ((upd x.st.leaf i _) m).pc u = _
        by_cases e : m = i
        · subst e; rw [System.upd_same, SinkFull.step_pc_other _ _ _ hu]; exact hc.idle m u hu
        · rw [System.upd_other _ _ e]; exact hc.idle m u hu
      · show ((servePass S i ⟨x.st.leaf, x.k, x.j⟩).leaf m).owner = _
        by_cases e : m = i
        · subst e; exact Option.isNone_iff_eq_none.1 c3
        · rw [hleaf m e]; exact hc.owner m
    · cases h

theorem allCmds_turns {F : Nat} (cs : List Cmd) : ∀ {x y : Run}, Calm1 x.st → allCmds S w use F cs x = some y →
    Turns S w (fun i => use i = true) F x.st x.k x.j (cs.map (Cmd.turn S)) y.st y.k y.j := by
  induction cs with
  | nil => intro x y _ h; cases h; exact .nil _ _ _
  | cons c rest ih =>
    intro x y hc h
    obtain ⟨z, hz, hy⟩ := Option.bind_eq_some_iff.1 (show (oneCmd S w use F x c).bind (allCmds S w use F rest) = some y from h)
    obtain ⟨hcz, hk⟩ := oneCmd_turn h1 h2 hc hz
    exact hk (ih hcz hy)
end

/-- the list of calls that have returned plays no role -/
theorem step_later (d : List System.Conc.Done) (s : System.Conc.St) (t : Tid) : System.Conc.step (later d s) t = later d (System.Conc.step s t) := by
  unfold System.Conc.step later
  dsimp only
  cases s.pc t <;> dsimp only <;> (repeat' split) <;> first | rfl | simp only [System.Conc.St.finish, System.Conc.St.goto, List.append_assoc]

theorem after_later (S : Setup) (d : List System.Conc.Done) (s : St) (t : Tid) (sys' : System.Conc.St) :
    (withDone d s).after S t (later d sys') = withDone d (s.after S t sys') := rfl

section
variable {S : Setup} {w : Nat → World} {use : Nat → Prop} (d : List System.Conc.Done)

theorem alone_later {t : Tid} {s s' : St} {k j k' j' : Nat → Nat} (h : Alone S w t s k j s' k' j') : Alone S w t (withDone d s) k j (withDone d s') k' j' := by
  induction h with
  | refl => exact .refl _ _ _
  | enter i q rest hd hq hi ho _ ih => exact .enter i q rest hd hq hi ho ih
  | leaf i ch ki ji ha _ ih => exact .leaf i ch ki ji ha ih

theorem aloneAll_later {t : Tid} {s s' : St} {k j k' j' : Nat → Nat} (h : AloneAll S w use t s k j s' k' j') :
    AloneAll S w use t (withDone d s) k j (withDone d s') k' j' := by
  induction h with
  | refl => exact .refl _ _ _
  | enter i q rest hd hq hi ho _ ih => exact .enter i q rest hd hq hi ho ih
  | leaf i ch ki ji ha _ ih => exact .leaf i ch ki ji ha ih
  | @system s s' k j k' j' hf hi hu _ ih =>
    have e : (withDone d s).after S t (System.Conc.step (withDone d s).sys t) = withDone d (s.after S t (System.Conc.step s.sys t)) := by
      show (withDone d s).after S t (System.Conc.step (later d s.sys) t) = _
      rw [step_later, after_later]
    exact .system hf hi (by rw [e]; exact hu) (by rw [e]; exact ih)

theorem begins_later {F : Nat} {t : Tid} {s s0 : St} {c : Whole.Call} (h : Begins S F t s c s0) : Begins S F t (withDone d s) c (withDone d s0) := by
  have hfin : ∀ sys' op o, later d (s.sys.finish t sys' op o) = (later d s.sys).finish t sys' op o := fun sys' op o => by
    unfold later System.Conc.St.finish; simp only [List.append_assoc]
  cases h with
  | log i r hn ha => exact .log (s := withDone d s) i r hn ha
  | flushLogger i n ha hs hn => exact .flushLogger (s := withDone d s) i n ha hs hn
  | flush n hn => exact .flush (s := withDone d s) n hn
  | rotate n hn => exact .rotate (s := withDone d s) n hn
  | system op v sys' hm hc hn =>
    rw [← after_later, hfin]
    exact .system (s := withDone d s) op v sys' hm hc hn
  | failed op sys' hm hc =>
    rw [← after_later, hfin]
    exact .failed (s := withDone d s) op sys' hm hc
  | makeGroup a => exact .makeGroup (s := withDone d s) a

theorem turns_later {F : Nat} {s s' : St} {k j k' j' : Nat → Nat} {cs : List Turn} (h : Turns S w use F s k j cs s' k' j') :
    Turns S w use F (withDone d s) k j cs (withDone d s') k' j' := by
  induction h with
  | nil => exact .nil _ _ _
  | call t c ht hf hi hb hu h hr he _ ih => exact .call t c ht hf hi (begins_later d hb) hu (aloneAll_later d h) hr he ih
  | pass i ch hu hp ht h hr _ ih => exact .pass i ch hu hp ht (alone_later d h) hr ih
end

theorem turns_use {S : Setup} {w : Nat → World} {use use' : Nat → Prop} (hu' : ∀ i, use i → use' i) {F : Nat} {s s' : St} {k j k' j' : Nat → Nat} {cs : List Turn}
    (h : Turns S w use F s k j cs s' k' j') : Turns S w use' F s k j cs s' k' j' := by
  have ha : ∀ {t : Tid} {s s' : St} {k j k' j' : Nat → Nat}, AloneAll S w use t s k j s' k' j' → AloneAll S w use' t s k j s' k' j' := by
    intro t s s' k j k' j' h
    induction h with
    | refl => exact .refl _ _ _
    | enter i q rest hd hq hi ho _ ih => exact .enter i q rest hd hq hi ho ih
    | leaf i ch ki ji ha _ ih => exact .leaf i ch ki ji ha ih
    | system hf hi hu _ ih => exact .system hf hi (fun q hq => hu' _ (hu q hq)) ih
  induction h with
  | nil => exact .nil _ _ _
  | call t c ht hf hi hb hu h hr he _ ih => exact .call t c ht hf hi hb (fun q hq => hu' _ (hu q hq)) (ha h) hr he ih
  | pass i ch hu hp ht h hr _ ih => exact .pass i ch (hu' _ hu) hp ht h hr ih

/-- thread 1 gets a logger, threads 1 and 2 log through it, the worker makes a pass, thread 2 logs what the sink does not want -/
def docCmds : List Cmd :=
  [.system 1 (.getLogger "log".toList ['a'] none none), .log 1 0 ⟨.info, "one".toList⟩, .log 2 0 ⟨.warn, "two".toList⟩, .pass 1, .log 2 0 ⟨.debug, "three".toList⟩]

def docUse1 (i : Nat) : Bool := decide (i = 1)

def docRun1 : Option Run := allCmds docS fileEnv.world docUse1 20 docCmds ⟨configured docS docY.sys [], fun _ => 0, fun _ => 0⟩

theorem docRun1_text : (docRun1.map fun x => (x.st.leaf 1).dev ++ (x.st.leaf 1).sbuf) =
    some "24.01.02 03:04:05.000000  Info      log  one\n24.01.02 03:04:05.000000  Warning   log  two\n".toList := by
  decide +kernel

/-- the program with one thread after the call of `configure` -/
def docX : Whole.State := ⟨docY, Whole.construct fileEnv 1 docY (Whole.new fileEnv false id false).heap⟩

def docX1 : Option Whole.State := allTurns fileEnv 20 (docCmds.map (Cmd.turn docS)) docX

theorem docX1_text : (docX1.map fun x => (x.heap.leaf 1).written.map (·.2)) =
    some ["24.01.02 03:04:05.000000  Info      log  one\n".toList, "24.01.02 03:04:05.000000  Warning   log  two\n".toList] := by
  decide +kernel

/-! The hypotheses of `C111_document` (hence of `C111_one_by_one` and `C111_one_call`). -/
example : ∃ (done : List System.Conc.Done) (s' : St) (k' j' : Nat → Nat) (x' : Whole.State),
    Turns docS fileEnv.world (fun i => Usual (paramsOf docY.specs i)) 20 (configured docS docY.sys done) (fun _ => 0) (fun _ => 0) (docCmds.map (Cmd.turn docS)) s' k' j' ∧
    docX1 = some x' ∧ s'.sys.sys = x'.st.sys ∧ Agree (paramsOf docY.specs) fileEnv.world x'.heap s' k' j' ∧
    (s'.leaf 1).dev ++ (s'.leaf 1).sbuf =
      "24.01.02 03:04:05.000000  Info      log  one\n24.01.02 03:04:05.000000  Warning   log  two\n".toList := by
  have hc : Whole.step fileEnv 20 (Whole.new fileEnv false id false) (.configure [] (.yaml (.document 16))) = .ok docX := by
    unfold Whole.step
    dsimp only
    rw [show Yaml.configure fileEnv.W 20 [] (.yaml (.document 16)) (Whole.new fileEnv false id false).st = .ok docR docY from doc_conf]
    rfl
  obtain ⟨done, _, hd⟩ := C111_document (format := fun r => r.text) (fmt := fun r => .ok r.text) (fun l => List.Perm.refl _) hc
  obtain ⟨y, hy, ht⟩ := Option.map_eq_some_iff.1 docRun1_text
  obtain ⟨x', hx, _⟩ := Option.map_eq_some_iff.1 docX1_text
  have h1 := turns_later done (allCmds_turns (S := docS) (w := fileEnv.world) (use := docUse1) (fun _ _ => rfl) (fun _ _ => rfl) docCmds
    (x := ⟨configured docS docY.sys [], fun _ => 0, fun _ => 0⟩)
    ⟨fun _ => rfl, (fun n u hu => by show (if u = SinkConc.workerTid then _ else _) = _; rw [if_neg hu]), fun _ => rfl, fun n => init_worker _ _⟩ hy)
  have hs : withDone done (configured docS docY.sys []) = configured docS docY.sys done := by simp [withDone, later, configured]
  have h2 : Turns docS fileEnv.world (fun i => Usual (paramsOf docY.specs i)) 20 (configured docS docY.sys done) (fun _ => 0) (fun _ => 0) (docCmds.map (Cmd.turn docS))
      (withDone done y.st) y.k y.j := by
    rw [← hs]
    refine turns_use (fun i hi => ?_) h1
    have hp : paramsOf docY.specs 1 = docFile := by unfold paramsOf; rw [doc_facts.2.2.2.1]; rfl
    rw [of_decide_eq_true (show decide (i = 1) = true from hi), hp]
    exact ⟨(by intro h; cases h), (by decide), (by decide)⟩
  obtain ⟨hsys, hag⟩ := hd (withDone done y.st) y.k y.j (docCmds.map (Cmd.turn docS)) x' h2 hx
  exact ⟨done, withDone done y.st, y.k, y.j, x', h2, hx, hsys, hag, ht⟩

end Many
end Soralog
