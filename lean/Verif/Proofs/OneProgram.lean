import Verif.Spec.OneProgram
import Verif.Proofs.OneByOne
import Verif.Proofs.ManyDoc
/-! # Calls of a whole program, one after the other -/
namespace Soralog
namespace OneThread
open Sink (Leaf World Heap Snk)
open Many (Req)

variable {S : Many.Setup} {cf : Nat → Sink.Cfg} {w : Nat → World} {o : Nat → Bool}

theorem alone_sys {t : Tid} {s s' : Many.St} {k j k' j' : Nat → Nat} (h : Many.Alone S w t s k j s' k' j') : s'.sys = s.sys := by
  induction h with
  | refl => rfl
  | enter i q rest hd hq hi ho _ ih => exact ih
  | leaf i ch ki ji ha _ ih => exact ih

/-- the first step in the logging system -/
theorem alone_split {use : Nat → Prop} {t : Tid} {s s' : Many.St} {k j k' j' : Nat → Nat} (h : Many.AloneAll S w use t s k j s' k' j') :
    Many.Alone S w t s k j s' k' j' ∨ ∃ s1 k1 j1, Many.Alone S w t s k j s1 k1 j1 ∧ Many.Free s1 t ∧ s1.sys.pc t ≠ .idle ∧
      (∀ q ∈ (s1.after S t (System.Conc.step s1.sys t)).todo t, use q.1) ∧
      Many.AloneAll S w use t (s1.after S t (System.Conc.step s1.sys t)) k1 j1 s' k' j' := by
  induction h with
  | refl => exact .inl (.refl _ _ _)
  | enter i q rest hd hq hi ho _ ih =>
    rcases ih with h | ⟨s1, k1, j1, h, hr⟩
    · exact .inl (.enter i q rest hd hq hi ho h)
    · exact .inr ⟨s1, k1, j1, .enter i q rest hd hq hi ho h, hr⟩
  | leaf i ch ki ji ha _ ih =>
    rcases ih with h | ⟨s1, k1, j1, h, hr⟩
    · exact .inl (.leaf i ch ki ji ha h)
    · exact .inr ⟨s1, k1, j1, .leaf i ch ki ji ha h, hr⟩
  | system hf hi hu h _ => exact .inr ⟨_, _, _, .refl _ _ _, hf, hi, hu, h⟩

/-- both models show the same and everybody is at rest -/
structure Quiet (S : Many.Setup) (cf : Nat → Sink.Cfg) (w : Nat → World) (h : Heap) (s : Many.St) (k j : Nat → Nat) : Prop where
  reach : Many.Reach S s
  rest : ∀ i u, Resting ((s.leaf i).pc u)
  agree : Many.Agree cf w h s k j

theorem serve_agree (hS : ∀ i, Many.Usual (cf i) → S.leaf i = Many.leafOf (w i) (o i) (cf i)) {s s' : Many.St} {t : Tid} (ht : t ≠ SinkConc.workerTid)
    {k j k' j' : Nat → Nat} {h h' : Heap} (hQ : Quiet S cf w h s k j) (hdid : Did (s.todo t) h.leaf h'.leaf) (hu : ∀ q ∈ s.todo t, Many.Usual (cf q.1))
    (hal : Many.Alone S w t s k j s' k' j') (he : Many.Free s' t) : Quiet S cf w h' s' k' j' := by
  have h0 : MHere cf w t h'.leaf s k j := by
    refine ⟨h.leaf, hdid, hu, fun i => ⟨fun hui => ?_, fun _ => ⟨hQ.rest i t, hQ.agree i⟩⟩⟩
    have := Many.leaf_reach hQ.reach i
    rw [hS i hui] at this
    exact fhere_of hui.2.2 this (hQ.rest i) (hQ.agree i)
  obtain ⟨ha, hid⟩ := mhere_end (mhere_alone hS hal (.inl ht) h0) he.1 (free_ends he)
  refine ⟨alone_reach hal (.inl ht) hQ.reach, fun i u => ?_, ha⟩
  by_cases e : u = t
  · subst e; exact hid i
  · rw [alone_others hal i e]; exact hQ.rest i u

/-- the thread is done in the logging system: it makes the calls of sinks and stops -/
theorem finish (hS : ∀ i, Many.Usual (cf i) → S.leaf i = Many.leafOf (w i) (o i) (cf i)) {s s' : Many.St} {t : Tid} (ht : t ≠ SinkConc.workerTid)
    {k j k' j' : Nat → Nat} {h h' : Heap} (hQ : Quiet S cf w h s k j) (hdid : Did (s.todo t) h.leaf h'.leaf) (hu : ∀ q ∈ s.todo t, Many.Usual (cf q.1))
    (hp : s.sys.pc t = .idle) (hal : Many.AloneAll S w (fun i => Many.Usual (cf i)) t s k j s' k' j') (he : Many.Free s' t) :
    Quiet S cf w h' s' k' j' ∧ s'.sys.sys = s.sys.sys := by
  rcases alone_split hal with h1 | ⟨s1, _, _, h1, _, hi, _⟩
  · exact ⟨serve_agree hS ht hQ hdid hu h1 he, by rw [alone_sys h1]⟩
  · rw [alone_sys h1] at hi; exact absurd hp hi

/-- the thread is not done in the logging system: it makes the calls of sinks and goes on -/
theorem goOn (hS : ∀ i, Many.Usual (cf i) → S.leaf i = Many.leafOf (w i) (o i) (cf i)) {s s' : Many.St} {t : Tid} (ht : t ≠ SinkConc.workerTid)
    {k j k' j' : Nat → Nat} {h h' : Heap} (hQ : Quiet S cf w h s k j) (hdid : Did (s.todo t) h.leaf h'.leaf) (hu : ∀ q ∈ s.todo t, Many.Usual (cf q.1))
    (hp : s.sys.pc t ≠ .idle) (hal : Many.AloneAll S w (fun i => Many.Usual (cf i)) t s k j s' k' j') (hs : s'.sys.pc t = .idle) :
    ∃ (s1 : Many.St) (k1 j1 : Nat → Nat), s1.sys = s.sys ∧ Quiet S cf w h' (s1.after S t (System.Conc.step s1.sys t)) k1 j1 ∧
      (∀ q ∈ (s1.after S t (System.Conc.step s1.sys t)).todo t, Many.Usual (cf q.1)) ∧
      Many.AloneAll S w (fun i => Many.Usual (cf i)) t (s1.after S t (System.Conc.step s1.sys t)) k1 j1 s' k' j' := by
  rcases alone_split hal with h1 | ⟨s1, k1, j1, h1, hf, hi, hu1, h2⟩
  · rw [alone_sys h1] at hs; exact absurd hs hp
  · have hq := serve_agree hS ht hQ hdid hu h1 hf
    exact ⟨s1, k1, j1, alone_sys h1, ⟨.next hq.reach (.system s1 t _ ht hf (.step _ hi)), hq.rest, hq.agree⟩, hu1, h2⟩

/-- nothing new to call -/
theorem after_nothing {s : Many.St} {t : Tid} {sys' : System.Conc.St} (h1 : sys'.out = s.sys.out) (h2 : sys'.sys.warned = s.sys.sys.warned) :
    (s.after S t sys').todo t = [] := by
  show upd s.todo t _ t = _
  rw [upd_at, h1, h2, List.drop_length, List.drop_length]
  rfl

theorem after_call {s : Many.St} {t : Tid} {sys' : System.Conc.St} {x : System.Conc.SinkCall} (h1 : sys'.out = s.sys.out ++ [x])
    (h2 : sys'.sys.warned = s.sys.sys.warned) : (s.after S t sys').todo t = Many.planOf S (Many.nameFor s.sys t) x := by
  show upd s.todo t _ t = _
  rw [upd_at, h1, h2, List.drop_left, List.drop_length]
  simp

theorem did_nothing {l : List (Nat × Req)} (x : Nat → Leaf) (h : l = []) : Did l x x := by subst h; exact .nil x

/-- `Logger::push` -/
theorem log_turn (hS : ∀ i, Many.Usual (cf i) → S.leaf i = Many.leafOf (w i) (o i) (cf i)) (hl : ∀ i, (cf i).level = (S.leaf i).level)
    {s s' : Many.St} {t : Tid} (ht : t ≠ SinkConc.workerTid) {k j k' j' : Nat → Nat} {h h' : Heap} (hQ : Quiet S cf w h s k j) {i n : Nat} {r : System.Conc.Rec}
    (hd : s.todo t = []) (hp : s.sys.pc t = .log1 i r) (hn : (s.sys.sys.lgr i).sink = some n) {F : Nat}
    (hlog : Sink.Logger.log F ⟨(s.sys.sys.lgr i).name, (s.sys.sys.lgr i).level, S.snk n⟩ r.level (S.format r) (S.fmt r) h = some h')
    (hal : Many.AloneAll S w (fun i => Many.Usual (cf i)) t s k j s' k' j') (he : Many.Free s' t) (hs : s'.sys.pc t = .idle) :
    Quiet S cf w h' s' k' j' ∧ s'.sys.sys = s.sys.sys := by
  obtain ⟨s1, k1, j1, e1, q1, u1, a1⟩ := goOn hS ht hQ (did_nothing _ hd) (by rw [hd]; intro q hq; cases hq) (by rw [hp]; intro h; cases h) hal hs
  rw [e1] at q1 u1 a1
  have t1 : (s1.after S t (System.Conc.step s.sys t)).todo t = [] := by
    refine after_nothing ?_ ?_ <;> rw [e1] <;> unfold System.Conc.step <;> rw [hp] <;> rfl
  unfold Sink.Logger.log at hlog
  by_cases hc : r.level ≤ (s.sys.sys.lgr i).level ∧ r.level ≠ .off ∧ r.level ≠ .ignore
  · have p1 : (System.Conc.step s.sys t).pc t = .log2 i r := by
      unfold System.Conc.step; rw [hp]; dsimp only; rw [if_pos hc]; exact upd_at _ _ _
    have g1 : (System.Conc.step s.sys t).sys = s.sys.sys := by unfold System.Conc.step; rw [hp]; rfl
    rw [if_pos hc.1, if_pos hc.2] at hlog
    obtain ⟨hA, hpush, hh⟩ := Option.map_eq_some_iff.1 hlog
    obtain ⟨s2, k2, j2, e2, q2, u2, a2⟩ := goOn hS ht q1 (did_nothing _ t1) (by rw [t1]; intro q hq; cases hq)
      (by show (System.Conc.step s.sys t).pc t ≠ _; rw [p1]; intro h; cases h) a1 hs
    have e2' : s2.sys = System.Conc.step s.sys t := e2
    have st2 : System.Conc.step s2.sys t = { s2.sys with pc := upd s2.sys.pc t (.log3 i), out := s2.sys.out ++ [.push t n r] } := by
      unfold System.Conc.step; rw [e2', p1]; dsimp only; rw [g1, hn]
    have t2 : (s2.after S t (System.Conc.step s2.sys t)).todo t = Many.pushPlan S (S.msg (s.sys.sys.lgr i).name r) (S.snk n) := by
      rw [after_call (x := .push t n r) (by rw [st2]) (by rw [st2])]
      unfold Many.planOf Many.nameFor; rw [e2', p1]; dsimp only; rw [g1]
    have hdid : Did ((s2.after S t (System.Conc.step s2.sys t)).todo t) h.leaf hA.leaf := by
      rw [t2]
      exact did_push S F _ _ h hA (fun m _ => by rw [(q1.agree m).cfg]; exact hl m) hpush
    have p2 : (s2.after S t (System.Conc.step s2.sys t)).sys.pc t = .log3 i := by
      show (System.Conc.step s2.sys t).pc t = _; rw [st2]; exact upd_at _ _ _
    have g2 : (s2.after S t (System.Conc.step s2.sys t)).sys.sys = s.sys.sys := by
      show (System.Conc.step s2.sys t).sys = _; rw [st2]; show s2.sys.sys = _; rw [e2', g1]
    obtain ⟨s3, k3, j3, e3, q3, u3, a3⟩ := goOn hS ht q2 hdid u2 (by rw [p2]; intro h; cases h) a2 hs
    have t3 : (s3.after S t (System.Conc.step s3.sys t)).todo t = [] := by
      refine after_nothing ?_ ?_ <;> unfold System.Conc.step <;> rw [e3, p2] <;> rfl
    have g3 : (s3.after S t (System.Conc.step s3.sys t)).sys.sys = s.sys.sys := by
      show (System.Conc.step s3.sys t).sys = _; unfold System.Conc.step; rw [e3, p2]; exact g2
    have p3 : (s3.after S t (System.Conc.step s3.sys t)).sys.pc t = if Level.critical ≤ (s.sys.sys.lgr i).level then .log4 i else .idle := by
      show (System.Conc.step s3.sys t).pc t = _; unfold System.Conc.step; rw [e3, p2]; dsimp only; rw [g2]; exact upd_at _ _ _
    by_cases hcr : Level.critical ≤ (s.sys.sys.lgr i).level
    · rw [if_pos hcr] at p3 hh
      obtain ⟨s4, k4, j4, e4, q4, u4, a4⟩ := goOn hS ht q3 (did_nothing _ t3) (by rw [t3]; intro q hq; cases hq) (by rw [p3]; intro h; cases h) a3 hs
      have st4 : System.Conc.step s4.sys t = { s4.sys with pc := upd s4.sys.pc t .idle, out := s4.sys.out ++ [.flush t n] } := by
        unfold System.Conc.step; rw [e4, p3]; dsimp only; rw [g3, hn]
      have t4 : (s4.after S t (System.Conc.step s4.sys t)).todo t = Many.flushPlan (S.snk n) := by
        rw [after_call (x := .flush t n) (by rw [st4]) (by rw [st4])]
        rfl
      obtain ⟨hq, hsys⟩ := finish hS ht q4 (h' := h') (by rw [t4, ← hh]; exact did_flush _ _) u4
        (by show (System.Conc.step s4.sys t).pc t = _; rw [st4]; exact upd_at _ _ _) a4 he
      refine ⟨hq, hsys.trans ?_⟩
      show (System.Conc.step s4.sys t).sys = _
      rw [st4]; show s4.sys.sys = _; rw [e4]; exact g3
    · rw [if_neg hcr] at p3 hh
      subst hh
      obtain ⟨hq, hsys⟩ := finish hS ht q3 (did_nothing _ t3) (by rw [t3]; intro q hq; cases hq) p3 a3 he
      exact ⟨hq, hsys.trans g3⟩
  · have hh : h' = h := by
      split at hlog
      · rename_i h1
        rw [if_neg (fun h2 => hc ⟨h1, h2⟩)] at hlog; cases hlog; rfl
      · cases hlog; rfl
    subst hh
    obtain ⟨hq, hsys⟩ := finish hS ht q1 (did_nothing _ t1) (by rw [t1]; intro q hq; cases hq)
      (by show (System.Conc.step s.sys t).pc t = _; unfold System.Conc.step; rw [hp]; dsimp only; rw [if_neg hc]; exact upd_at _ _ _) a1 he
    refine ⟨hq, hsys.trans ?_⟩
    show (System.Conc.step s.sys t).sys = _
    unfold System.Conc.step; rw [hp]; rfl


/-! ### `makeGroup` -/

/-- a thread goes on in the logging system and calls no sink -/
inductive SysRun (t : Tid) : System.Conc.St → System.Conc.St → Prop where
  | refl (c : System.Conc.St) : SysRun t c c
  | step {c c' : System.Conc.St} (hp : c.pc t ≠ .idle) (ho : (System.Conc.step c t).out = c.out) (hw : (System.Conc.step c t).sys.warned = c.sys.warned)
      (h : SysRun t (System.Conc.step c t) c') : SysRun t c c'

theorem SysRun.snoc {t : Tid} {c0 c : System.Conc.St} (h : SysRun t c0 c) (hp : c.pc t ≠ .idle) (ho : (System.Conc.step c t).out = c.out)
    (hw : (System.Conc.step c t).sys.warned = c.sys.warned) : SysRun t c0 (System.Conc.step c t) := by
  induction h with
  | refl c => exact .step hp ho hw (.refl _)
  | step hp' ho' hw' _ ih => exact .step hp' ho' hw' (ih hp ho hw)

theorem run_step {t : Tid} {c0 c : System.Conc.St} {p : System.Conc.PC} (hp : p ≠ .idle) (h : SysRun t c0 (c.goto t p)) {c' : System.Conc.St}
    (hs : System.Conc.step (c.goto t p) t = c') (ho : c'.out = c.out) (hw : c'.sys.warned = c.sys.warned) : SysRun t c0 c' := by
  subst hs
  exact h.snoc (by rw [Many.goto_pc]; exact hp) ho hw

/-- from the sink of the new group on -/
theorem run_tail {t : Tid} {c0 c : System.Conc.St} (a : System.Conc.Args) (g : System.Group) (h : SysRun t c0 ((c.goto t (.mkSink a g))))
    {y : System.Sys} {o : System.Conc.Outcome}
    (hy : (match System.resolve c.sys.sinks a.sink, (g.parent.isSome || a.level.isSome) with
      | some k, true => (System.Conc.insert a
          { g with sink := (k.or g.sink), sinkOv := g.sinkOv || (g.parent.isSome && k.isSome), level := a.level.getD g.level,
                   levelOv := g.levelOv || (g.parent.isSome && a.level.isSome) } c.sys, System.Conc.Outcome.ret (.group c.sys.ngroups))
      | _, _ => (c.sys, .thrown)) = (y, o)) : SysRun t c0 ((c.finish t y a.op o)) := by
  have key : ∀ (k : Option Nat), System.resolve c.sys.sinks a.sink = some k →
      SysRun t c0 ((c.goto t (.mkLevel a { g with sink := (k.or g.sink), sinkOv := g.sinkOv || (g.parent.isSome && k.isSome) }))) := by
    intro k hk
    refine run_step (by intro e; cases e) h ?_ rfl rfl
    unfold System.Conc.step
    rw [Many.goto_pc]
    dsimp only
    unfold System.resolve at hk
    cases hs : a.sink with
    | none =>
      rw [hs] at hk
      cases hk
      dsimp only
      rw [Many.goto_goto]
      simp
    | some kn =>
      rw [hs] at hk
      dsimp only at hk
      obtain ⟨k', h1, rfl⟩ := Option.map_eq_some_iff.1 hk
      dsimp only
      rw [show (c.goto t (.mkSink a g)).sys = c.sys from rfl, h1]
      dsimp only
      rw [Many.goto_goto]
      cases g.parent <;> simp
  cases hk : System.resolve c.sys.sinks a.sink with
  | none =>
    rw [hk] at hy
    cases hy
    have := run_step (by intro e; cases e) h (c' := c.finish t c.sys a.op .thrown) ?_ rfl rfl
    · exact this
    unfold System.Conc.step
    rw [Many.goto_pc]
    dsimp only
    unfold System.resolve at hk
    cases hs : a.sink with
    | none => rw [hs] at hk; cases hk
    | some kn =>
      rw [hs] at hk
      dsimp only at hk
      rw [Option.map_eq_none_iff] at hk
      dsimp only
      rw [show (c.goto t (.mkSink a g)).sys = c.sys from rfl, hk]
      dsimp only
      rw [Many.finish_of_goto]
  | some k =>
    rw [hk] at hy
    have h1 := key k hk
    generalize hg1 : ({ g with sink := (k.or g.sink), sinkOv := g.sinkOv || (g.parent.isSome && k.isSome) } : System.Group) = g1 at h1 hy
    have hpar : g1.parent = g.parent := by rw [← hg1]
    cases hl : (g.parent.isSome || a.level.isSome) with
    | false =>
      rw [hl] at hy
      cases hy
      refine run_step (by intro e; cases e) h1 ?_ rfl rfl
      unfold System.Conc.step
      rw [Many.goto_pc]
      dsimp only
      rw [Bool.or_eq_false_iff] at hl
      cases hal : a.level with
      | some l => rw [hal] at hl; cases hl.2
      | none =>
        dsimp only
        rw [hpar, hl.1]
        simp only [Bool.false_eq_true, if_false]
        rw [Many.finish_of_goto]; rfl
    | true =>
      rw [hl] at hy
      have h2 : SysRun t c0 ((c.goto t (.mkInsert a ⟨g1.name, g1.parent, g1.sink, g1.sinkOv, a.level.getD g.level, g.levelOv || (g.parent.isSome && a.level.isSome)⟩))) := by
        refine run_step (by intro e; cases e) h1 ?_ rfl rfl
        unfold System.Conc.step
        rw [Many.goto_pc]
        dsimp only
        cases hal : a.level with
        | some l =>
          dsimp only
          rw [Many.goto_goto]
          subst hg1
          cases g.parent <;> simp
        | none =>
          rw [hal] at hl
          simp only [Option.isSome_none, Bool.or_false] at hl
          dsimp only
          rw [hpar, hl, if_pos rfl, Many.goto_goto]
          subst hg1
          simp
      refine run_step (by intro e; cases e) h2 ?_ ?_ ?_
      · unfold System.Conc.step
        rw [Many.goto_pc]
        dsimp only
        rw [Many.finish_of_goto]
        subst hg1
        cases hy
        rfl
      · rfl
      · subst hg1; cases hy; rfl

theorem run_makeGroup {t : Tid} {c0 c : System.Conc.St} (hw : System.WF c.sys) (a : System.Conc.Args) (h0 : SysRun t c0 (c.goto t a.start))
    {F : Nat} {y : System.Sys} {v : System.Val} {o : System.Conc.Outcome}
    (hc : (System.step F c.sys a.op = .ret v y ∧ o = .ret v) ∨ (System.step F c.sys a.op = .throw y ∧ o = .thrown)) :
    SysRun t c0 ((c.finish t y a.op o)) := by
  have hstep : System.step F c.sys a.op = (System.makeGroup a.name a.parent a.sink a.level c.sys).map System.Val.group := rfl
  rw [hstep, System.makeGroup_eq hw.gLt] at hc
  unfold System.Conc.Args.start at h0
  cases hp : a.parent with
  | none =>
    rw [hp] at h0 hc
    simp only [Option.isSome_none, Bool.false_eq_true, if_false] at h0
    refine run_tail a _ h0 ?_
    rw [show System.resolve c.sys.groups none = some none from rfl] at hc
    simp only [Option.isSome_none, Bool.false_or] at hc
    simp only [System.Conc.blank, Option.isSome_none, Bool.false_or]
    revert hc
    cases hk : System.resolve c.sys.sinks a.sink with
    | none =>
      intro hc
      rcases hc with ⟨h1, rfl⟩ | ⟨h1, rfl⟩ <;> cases h1
      rfl
    | some k =>
      cases hl : a.level.isSome with
      | false =>
        intro hc
        rcases hc with ⟨h1, rfl⟩ | ⟨h1, rfl⟩ <;> cases h1
        rfl
      | true =>
        intro hc
        rcases hc with ⟨h1, rfl⟩ | ⟨h1, rfl⟩ <;> cases h1
        unfold System.Conc.insert System.newGroup
        cases k <;> cases hal : a.level <;> simp_all
  | some pn =>
    rw [hp] at h0 hc
    simp only [Option.isSome_some, if_true] at h0
    cases hf : c.sys.groups.find pn with
    | none =>
      rw [show System.resolve c.sys.groups (some pn) = none by unfold System.resolve; simp only [hf, Option.map_none]] at hc
      rcases hc with ⟨h1, rfl⟩ | ⟨h1, rfl⟩ <;> cases h1
      refine run_step (by intro e; cases e) h0 ?_ rfl rfl
      unfold System.Conc.step
      rw [Many.goto_pc]
      dsimp only
      rw [hp]
      dsimp only [Option.bind]
      rw [show (c.goto t (.mkParent a)).sys = c.sys from rfl, hf]
      dsimp only
      rw [Many.finish_of_goto]
    | some p =>
      have h1 : SysRun t c0 ((c.goto t (.mkInheritSink a p { System.Conc.blank a with parent := some p }))) := by
        refine run_step (by intro e; cases e) h0 ?_ rfl rfl
        unfold System.Conc.step
        rw [Many.goto_pc]
        dsimp only
        rw [hp]
        dsimp only [Option.bind]
        rw [show (c.goto t (.mkParent a)).sys = c.sys from rfl, hf]
        dsimp only
        rw [Many.goto_goto]
      have h2 := run_step (by intro e; cases e) h1 (c' := c.goto t (.mkInheritLevel a p { System.Conc.blank a with parent := some p, sink := (c.sys.grp p).sink }))
        (by unfold System.Conc.step; rw [Many.goto_pc]; dsimp only; rw [Many.goto_goto]; rfl) rfl rfl
      have h3 := run_step (by intro e; cases e) h2 (c' := c.goto t (.mkSink a { System.Conc.blank a with parent := some p, sink := (c.sys.grp p).sink, level := (c.sys.grp p).level }))
        (by unfold System.Conc.step; rw [Many.goto_pc]; dsimp only; rw [Many.goto_goto]; rfl) rfl rfl
      refine run_tail a _ h3 ?_
      rw [show System.resolve c.sys.groups (some pn) = some (some p) by unfold System.resolve; simp only [hf, Option.map_some]] at hc
      simp only [Option.isSome_some, Bool.true_or] at hc
      simp only [Option.isSome_some, Bool.true_or]
      revert hc
      generalize System.resolve c.sys.sinks a.sink = kk
      cases kk with
      | none =>
        intro hc
        rcases hc with ⟨h1, rfl⟩ | ⟨h1, rfl⟩ <;> cases h1
        rfl
      | some k =>
        intro hc
        rcases hc with ⟨h1, rfl⟩ | ⟨h1, rfl⟩ <;> cases h1
        unfold System.Conc.insert System.newGroup
        cases k <;> cases a.level <;> simp [System.Conc.blank]


theorem sysRun_turn (hS : ∀ i, Many.Usual (cf i) → S.leaf i = Many.leafOf (w i) (o i) (cf i)) {t : Tid} (ht : t ≠ SinkConc.workerTid)
    {c c' : System.Conc.St} (hc : SysRun t c c') : ∀ {s s' : Many.St} {k j k' j' : Nat → Nat} {h : Heap}, c'.pc t = .idle → Quiet S cf w h s k j →
    s.todo t = [] → s.sys = c → Many.AloneAll S w (fun i => Many.Usual (cf i)) t s k j s' k' j' → Many.Free s' t → s'.sys.pc t = .idle →
    Quiet S cf w h s' k' j' ∧ s'.sys.sys = c'.sys := by
  induction hc with
  | refl c =>
    intro s s' k j k' j' h hp hQ hd hs hal he hi
    obtain ⟨hq, hsys⟩ := finish hS ht hQ (did_nothing _ hd) (by rw [hd]; intro q hq; cases hq) (by rw [hs]; exact hp) hal he
    exact ⟨hq, hsys.trans (by rw [hs])⟩
  | step hp ho hw _ ih =>
    intro s s' k j k' j' h hp' hQ hd hs hal he hi
    obtain ⟨s1, k1, j1, e1, q1, u1, a1⟩ := goOn hS ht hQ (did_nothing _ hd) (by rw [hd]; intro q hq; cases hq) (by rw [hs]; exact hp) hal hi
    rw [hs] at e1
    rw [e1] at q1 a1
    exact ih hp' q1 (after_nothing (by rw [e1]; exact ho) (by rw [e1]; exact hw)) rfl a1 he hi

/-! ### warnings -/

theorem did_warnings {specs : Nat → Yaml.Spec} (hT : ∀ n, S.snk n = Whole.tree specs n) (hl : ∀ i, (cf i).level = (S.leaf i).level) (F : Nat) (ws : List System.Warning) :
    ∀ {h h' : Heap}, (∀ i, (h.leaf i).cfg = cf i) → Whole.warnAll specs F ws h = some h' → Did (ws.flatMap (Many.warnPlan S)) h.leaf h'.leaf := by
  induction ws with
  | nil => intro h h' _ hw; cases hw; exact .nil _
  | cons x ws ih =>
    intro h h' hc hw
    obtain ⟨h1, ha, hb⟩ := Option.bind_eq_some_iff.1 (show (_ : Option Heap).bind (Whole.warnAll specs F ws) = some h' from hw)
    unfold Sink.Logger.log at ha
    rw [if_pos (by decide : Level.warn ≤ Level.warn), if_pos (by decide)] at ha
    obtain ⟨h2, hp, hh⟩ := Option.map_eq_some_iff.1 ha
    rw [if_pos (by decide : Level.critical ≤ Level.warn)] at hh
    have d1 : Did (Many.warnPlan S x) h.leaf h1.leaf := by
      unfold Many.warnPlan
      rw [hT]
      refine (did_push S F (Many.warningMsg x) _ h h2 (fun m _ => by rw [hc m]; exact hl m) hp).append ?_
      rw [← hh]; exact did_flush _ _
    rw [List.flatMap_cons]
    exact d1.append (ih (fun i => (d1.cfg i).trans (hc i)) hb)

theorem construct_none {E : Whole.Env} {y : Yaml.St} {h : Heap} {n : Nat} (hn : y.sys.nsinks = n) : Whole.construct E n y h = h := by
  unfold Whole.construct
  cases h with
  | mk l b =>
    congr
    funext k
    rw [if_neg (by omega)]

/-! ### a call, a pass, and all of them -/

variable {E : Whole.Env} {F : Nat}

theorem call_turn (hS : ∀ i, Many.Usual (cf i) → S.leaf i = Many.leafOf (w i) (o i) (cf i)) (hl : ∀ i, (cf i).level = (S.leaf i).level)
    {x x' : Whole.State} (hT : ∀ n, S.snk n = Whole.tree x.st.specs n)
    {s s0 s' : Many.St} {t : Tid} (ht : t ≠ SinkConc.workerTid) {k j k' j' : Nat → Nat} (hQ : Quiet S cf w x.heap s k j) (hsys : s.sys.sys = x.st.sys)
    (hf : Many.Free s t) (hi : s.sys.pc t = .idle) {c : Whole.Call} (hb : Many.Begins S F t s c s0) (hu : ∀ q ∈ s0.todo t, Many.Usual (cf q.1))
    (hal : Many.AloneAll S w (fun i => Many.Usual (cf i)) t s0 k j s' k' j') (he : Many.Free s' t) (hs : s'.sys.pc t = .idle)
    (hx : Many.oneTurn E F (.call t c) x = some x') :
    Quiet S cf w x'.heap s' k' j' ∧ s'.sys.sys = x'.st.sys ∧ x'.st.specs = x.st.specs := by
  unfold Many.oneTurn at hx
  cases hb with
  | log i r hn ha =>
    have hstep : Whole.step E F x (.log i r.level (S.format r) (S.fmt r)) = Whole.logCall F x i r.level (S.format r) (S.fmt r) := by
      unfold Whole.step; dsimp only; rw [if_pos ⟨by rw [← hsys]; exact hn, by rw [← hsys]; exact ha⟩]
    dsimp only at hx
    rw [hstep] at hx
    unfold Whole.logCall at hx
    dsimp only at hx
    have hQ0 : Quiet S cf w x.heap (s.after S t (s.sys.goto t (.log1 i r))) k j :=
      ⟨.next hQ.reach (.system s t _ ht hf (.log _ i r hi ha)), hQ.rest, hQ.agree⟩
    have hd : (s.after S t (s.sys.goto t (.log1 i r))).todo t = [] := after_nothing rfl rfl
    have hp : (s.after S t (s.sys.goto t (.log1 i r))).sys.pc t = .log1 i r := Many.goto_pc _ _ _
    cases hk : (x.st.sys.lgr i).sink with
    | none =>
      rw [hk] at hx
      dsimp only at hx
      split at hx
      · rename_i x'' hx2
        split at hx2
        · cases hx2
        · rename_i hc
          cases hx2
          cases hx
          obtain ⟨s1, k1, j1, e1, q1, u1, a1⟩ := goOn hS ht hQ0 (did_nothing _ hd) (by rw [hd]; intro q hq; cases hq) (by rw [hp]; intro h; cases h) hal hs
          have st1 : System.Conc.step s1.sys t = s1.sys.goto t .idle := by
            unfold System.Conc.step
            rw [e1, hp]
            dsimp only
            rw [if_neg]
            show ¬ (r.level ≤ (s.sys.sys.lgr i).level ∧ r.level ≠ .off ∧ r.level ≠ .ignore)
            rw [hsys]; exact hc
          obtain ⟨hq, hy⟩ := finish hS ht q1 (did_nothing _ (after_nothing (by rw [st1]; rfl) (by rw [st1]; rfl)))
            u1 (by show (System.Conc.step s1.sys t).pc t = _; rw [st1]; exact Many.goto_pc _ _ _) a1 he
          refine ⟨hq, hy.trans ?_, rfl⟩
          show (System.Conc.step s1.sys t).sys = _
          rw [st1]; show s1.sys.sys = _; rw [e1]; exact hsys
      · rename_i x'' hx2
        split at hx2 <;> cases hx2
      · cases hx
    | some n =>
      rw [hk] at hx
      dsimp only at hx
      cases hlog : Sink.Logger.log F ⟨(x.st.sys.lgr i).name, (x.st.sys.lgr i).level, Whole.tree x.st.specs n⟩ r.level (S.format r) (S.fmt r) x.heap with
      | none => rw [hlog] at hx; cases hx
      | some h' =>
        rw [hlog] at hx
        cases hx
        obtain ⟨hq, hy⟩ := log_turn hS hl ht hQ0 hd hp (n := n) (by show (s.sys.sys.lgr i).sink = _; rw [hsys]; exact hk) (F := F) (h' := h')
          (by show Sink.Logger.log F ⟨(s.sys.sys.lgr i).name, (s.sys.sys.lgr i).level, S.snk n⟩ _ _ _ _ = _; rw [hsys, hT]; exact hlog) hal he hs
        exact ⟨hq, hy.trans hsys, rfl⟩
  | flushLogger i n ha hn hlt =>
    have hstep : Whole.step E F x (.flush n) = .ok { x with heap := (Whole.tree x.st.specs n).flush x.heap } := by
      unfold Whole.step; dsimp only; rw [if_pos (by rw [← hsys]; exact hlt)]
    dsimp only at hx
    rw [hstep] at hx
    cases hx
    have hQ0 : Quiet S cf w x.heap (s.after S t (s.sys.goto t (.log4 i))) k j :=
      ⟨.next hQ.reach (.system s t _ ht hf (.flush _ i hi ha)), hQ.rest, hQ.agree⟩
    have hd : (s.after S t (s.sys.goto t (.log4 i))).todo t = [] := after_nothing rfl rfl
    have hp : (s.after S t (s.sys.goto t (.log4 i))).sys.pc t = .log4 i := Many.goto_pc _ _ _
    obtain ⟨s1, k1, j1, e1, q1, u1, a1⟩ := goOn hS ht hQ0 (did_nothing _ hd) (by rw [hd]; intro q hq; cases hq) (by rw [hp]; intro h; cases h) hal hs
    have st1 : System.Conc.step s1.sys t = { s1.sys with pc := upd s1.sys.pc t .idle, out := s1.sys.out ++ [.flush t n] } := by
      unfold System.Conc.step
      rw [e1, hp]
      dsimp only
      rw [show (s.after S t (s.sys.goto t (.log4 i))).sys.sys = s.sys.sys from rfl, hn]
    obtain ⟨hq, hy⟩ := finish hS ht q1 (h' := (Whole.tree x.st.specs n).flush x.heap)
      (by rw [after_call (x := .flush t n) (by rw [st1]) (by rw [st1])]; show Did (Many.flushPlan (S.snk n)) _ _; rw [hT]; exact did_flush _ _)
      u1 (by show (System.Conc.step s1.sys t).pc t = _; rw [st1]; exact upd_at _ _ _) a1 he
    refine ⟨hq, hy.trans ?_, rfl⟩
    show (System.Conc.step s1.sys t).sys = _
    rw [st1]; show s1.sys.sys = _; rw [e1]; exact hsys
  | flush n hlt =>
    have hstep : Whole.step E F x (.flush n) = .ok { x with heap := (Whole.tree x.st.specs n).flush x.heap } := by
      unfold Whole.step; dsimp only; rw [if_pos (by rw [← hsys]; exact hlt)]
    dsimp only at hx
    rw [hstep] at hx
    cases hx
    obtain ⟨hq, hy⟩ := finish (s := { s with todo := upd s.todo t (Many.Direct.flush.plan S n), said := s.said ++ Many.Direct.flush.said t n }) hS ht
      ⟨.next hQ.reach (.direct s t n .flush ht hf hi), hQ.rest, hQ.agree⟩ (h' := (Whole.tree x.st.specs n).flush x.heap)
      (by show Did (upd s.todo t _ t) _ _; rw [upd_at]; show Did (Many.flushPlan (S.snk n)) _ _; rw [hT]; exact did_flush _ _) hu hi hal he
    exact ⟨hq, hy.trans hsys, rfl⟩
  | rotate n hlt =>
    have hstep : Whole.step E F x (.rotate n) = .ok { x with heap := (Whole.tree x.st.specs n).rotate x.heap } := by
      unfold Whole.step; dsimp only; rw [if_pos (by rw [← hsys]; exact hlt)]
    dsimp only at hx
    rw [hstep] at hx
    cases hx
    obtain ⟨hq, hy⟩ := finish (s := { s with todo := upd s.todo t (Many.Direct.rotate.plan S n), said := s.said ++ Many.Direct.rotate.said t n }) hS ht
      ⟨.next hQ.reach (.direct s t n .rotate ht hf hi), hQ.rest, hQ.agree⟩ (h' := (Whole.tree x.st.specs n).rotate x.heap)
      (by show Did (upd s.todo t _ t) _ _; rw [upd_at]; show Did (Many.rotatePlan (S.snk n)) _ _; rw [hT]; exact did_rotate _ _) hu hi hal he
    exact ⟨hq, hy.trans hsys, rfl⟩
  | system op v sys' hm hc hn =>
    dsimp only at hx
    unfold Whole.step at hx
    dsimp only at hx
    rw [← hsys, hc] at hx
    dsimp only at hx
    rw [construct_none (y := { x.st with sys := sys' }) hn] at hx
    cases hwa : Whole.warnAll x.st.specs F (sys'.warned.drop s.sys.sys.warned.length) x.heap with
    | none => rw [hwa] at hx; cases hx
    | some h' =>
      rw [hwa] at hx
      cases hx
      have htd : (s.after S t (s.sys.finish t sys' op (.ret v))).todo t = (sys'.warned.drop s.sys.sys.warned.length).flatMap (Many.warnPlan S) := by
        show upd s.todo t _ t = _
        rw [upd_at]
        show (s.sys.out.drop s.sys.out.length).flatMap _ ++ _ = _
        rw [List.drop_length]; rfl
      obtain ⟨hq, hy⟩ := finish (s := s.after S t (s.sys.finish t sys' op (.ret v))) hS ht
        ⟨.next hQ.reach (.system s t _ ht hf (.call _ op F v sys' hi hm hc)), hQ.rest, hQ.agree⟩ (h' := h')
        (by rw [htd]; exact did_warnings hT hl F _ (fun i => (hQ.agree i).cfg) hwa) hu (upd_at _ _ _) hal he
      exact ⟨hq, hy, rfl⟩
  | failed op sys' hm hc =>
    dsimp only at hx
    unfold Whole.step at hx
    dsimp only at hx
    rw [← hsys, hc] at hx
    dsimp only at hx
    have hy' := Whole.step_throw hc
    subst hy'
    rw [construct_none (y := { x.st with sys := s.sys.sys }) rfl] at hx
    cases hx
    obtain ⟨hq, hy⟩ := finish (s := s.after S t (s.sys.finish t s.sys.sys op .thrown)) hS ht
      ⟨.next hQ.reach (.system s t _ ht hf (.failed _ op F _ hi hm hc)), hQ.rest, hQ.agree⟩ (h' := x.heap)
      (did_nothing _ (after_nothing rfl rfl)) hu (upd_at _ _ _) hal he
    exact ⟨hq, hy, rfl⟩
  | makeGroup a =>
    have hw : System.WF s.sys.sys := (System.Conc.struct_reach (Many.sys_reach hQ.reach)).wf
    have hQ0 : Quiet S cf w x.heap (s.after S t (s.sys.goto t a.start)) k j :=
      ⟨.next hQ.reach (.system s t _ ht hf (.makeGroup _ a hi)), hQ.rest, hQ.agree⟩
    have hd : (s.after S t (s.sys.goto t a.start)).todo t = [] := after_nothing rfl rfl
    have hns : ∀ y v, System.step F s.sys.sys a.op = .ret v y → y.nsinks = s.sys.sys.nsinks ∧ y.warned = s.sys.sys.warned := by
      intro y v hy
      rw [show System.step F s.sys.sys a.op = (System.makeGroup a.name a.parent a.sink a.level s.sys.sys).map System.Val.group from rfl,
        System.makeGroup_eq hw.gLt] at hy
      split at hy <;> cases hy
      exact ⟨rfl, rfl⟩
    dsimp only at hx
    unfold Whole.step at hx
    dsimp only at hx
    rw [← hsys] at hx
    cases hc : System.step F s.sys.sys a.op with
    | ret v y =>
      obtain ⟨hn, hwn⟩ := hns y v hc
      rw [hc] at hx
      dsimp only at hx
      rw [construct_none (y := { x.st with sys := y }) hn, hwn, List.drop_length] at hx
      cases hx
      obtain ⟨hq, hy⟩ := sysRun_turn hS ht (run_makeGroup hw a (.refl _) (.inl ⟨hc, rfl⟩)) (upd_at _ _ _) hQ0 hd rfl hal he hs
      exact ⟨hq, hy, rfl⟩
    | throw y =>
      rw [hc] at hx
      dsimp only at hx
      have hy' := Whole.step_throw hc
      subst hy'
      rw [construct_none (y := { x.st with sys := s.sys.sys }) rfl] at hx
      cases hx
      obtain ⟨hq, hy⟩ := sysRun_turn hS ht (run_makeGroup (v := .unit) hw a (.refl _) (.inr ⟨hc, rfl⟩)) (upd_at _ _ _) hQ0 hd rfl hal he hs
      exact ⟨hq, hy, rfl⟩
    | _ => rw [hc] at hx; cases hx

theorem turns_agree (hS : ∀ i, Many.Usual (cf i) → S.leaf i = Many.leafOf (w i) (o i) (cf i)) (hl : ∀ i, (cf i).level = (S.leaf i).level)
    {s s' : Many.St} {k j k' j' : Nat → Nat} {cs : List Many.Turn} (h1 : Many.Turns S w (fun i => Many.Usual (cf i)) F s k j cs s' k' j') :
    ∀ {x x' : Whole.State}, (∀ n, S.snk n = Whole.tree x.st.specs n) → Quiet S cf w x.heap s k j → s.sys.sys = x.st.sys →
      Many.allTurns E F cs x = some x' → Quiet S cf w x'.heap s' k' j' ∧ s'.sys.sys = x'.st.sys := by
  induction h1 with
  | nil => intro x x' _ hQ hs hx; cases hx; exact ⟨hQ, hs⟩
  | call t c ht hf hi hb hu h hr he _ ih =>
    intro x x' hT hQ hs hx
    obtain ⟨x1, ha, hb'⟩ := Option.bind_eq_some_iff.1 (show (Many.oneTurn E F (.call t c) x).bind (Many.allTurns E F _) = some x' from hx)
    obtain ⟨hq, hy, hsp⟩ := call_turn hS hl hT ht hQ hs hf hi hb hu h hr he ha
    exact ih (fun n => by rw [hsp]; exact hT n) hq hy hb'
  | @pass s s1 s' k j k1 j1 k' j' rest i ch hu hp hto hal hfr _ ih =>
    intro x x' hT hQ hs hx
    have hag := pass_agree hS hQ.reach hu hQ.rest hQ.agree hp hto hal hfr
    refine ih (x := { x with heap := (Snk.leaf i).flush x.heap }) hT ⟨alone_reach hal (.inr (show s.todo SinkConc.workerTid = [] from worker_todo hQ.reach)) (.next hQ.reach (.leaf s i _ ch)), fun n u => ?_, hag⟩
      ((congrArg System.Conc.St.sys (alone_sys hal)).trans hs) hx
    by_cases e : u = SinkConc.workerTid
    · subst e; exact .inr (hfr n)
    · rw [alone_others hal n e]
      show Resting ((upd s.leaf i _ n).pc u)
      by_cases e' : n = i
      · subst e'; rw [upd_at, SinkFull.step_pc_other _ _ _ e]; exact hQ.rest n u
      · rw [upd_not _ _ e']; exact hQ.rest n u

end OneThread
end Soralog
