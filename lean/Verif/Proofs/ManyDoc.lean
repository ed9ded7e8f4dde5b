import Verif.Spec.ManyDoc
import Verif.Proofs.Whole
import Verif.Props.Many
/-!
# Several threads on a configured system
-/
namespace Soralog
namespace Many
open System.Conc (Rec SinkCall Args Done passes)
open System (Sys Op ReachBy WF upd_same upd_other)

/-! ### the configured state is reachable -/

/-- the calls a configurator makes -/
def confOp (_ : Sys) : Op → Prop
  | .makeSink _ | .makeGroup _ _ _ _ | .setParentOfGroup _ _ | .setSinkOfGroup _ _ | .setLevelOfGroup _ _ | .setFallbackGroup _ => True
  | _ => False

/-- no logger and no warning is added -/
def Silent (s y : Sys) : Prop := y.nloggers = s.nloggers ∧ y.warned = s.warned

theorem propagate_silent {F : Nat} {stop : System.Group → Bool} {f : System.Change} {up : (Nat → System.Group) → System.Logger → System.Logger}
    {g : Nat} {s y : Sys} (h : System.propagate F stop f up g s = some y) : Silent s y := by
  unfold System.propagate at h
  split at h
  · cases h
  · cases h; exact ⟨rfl, rfl⟩

theorem levelPtr_silent {F g : Nat} {l : Option Level} {s y : Sys} (h : System.setLevelOfGroupPtr F g l s = some y) : Silent s y := by
  unfold System.setLevelOfGroupPtr at h
  have := propagate_silent h
  exact ⟨this.1, this.2⟩
theorem sinkPtr_silent {F g : Nat} {l : Option Nat} {s y : Sys} (h : System.setSinkOfGroupPtr F g l s = some y) : Silent s y := by
  unfold System.setSinkOfGroupPtr at h
  have := propagate_silent h
  exact ⟨this.1, this.2⟩
theorem parentPtr_silent {F g : Nat} {l : Option Nat} {s y : Sys} (h : System.setParentOfGroupPtr F g l s = some y) : Silent s y := by
  unfold System.setParentOfGroupPtr at h
  have := propagate_silent h
  exact ⟨this.1, this.2⟩

theorem step_silent {F : Nat} {s y : Sys} {op : Op} (ho : confOp s op) {v : System.Val}
    (h : System.step F s op = .ret v y ∨ System.step F s op = .throw y) : Silent s y := by
  have href : ∀ {b : Bool}, ((System.Res.ret b s).map System.Val.bool = .ret v y ∨ (System.Res.ret b s).map System.Val.bool = .throw y) →
      Silent s y := by
    intro b h; rcases h with h | h <;> cases h; exact ⟨rfl, rfl⟩
  cases op with
  | makeSink n => rcases h with h | h <;> cases h; exact ⟨rfl, rfl⟩
  | makeGroup n p k l =>
    simp only [System.step, System.makeGroup] at h
    revert h
    repeat' split
    all_goals (intro h; rcases h with h | h <;> cases h; exact ⟨rfl, rfl⟩)
  | setFallbackGroup n =>
    simp only [System.step, System.setFallbackGroup] at h
    revert h
    split <;> (intro h; rcases h with h | h <;> cases h; exact ⟨rfl, rfl⟩)
  | setParentOfGroup g p =>
    simp only [System.step, System.setParentOfGroup] at h
    revert h
    (repeat' split) <;> intro h <;>
      first | exact href h | exact System.Conc.ofOption_cases (P := Silent s) (fun y hy => parentPtr_silent hy) h | (rcases h with h | h <;> cases h)
  | setSinkOfGroup g k =>
    simp only [System.step, System.setSinkOfGroup] at h
    revert h
    (repeat' split) <;> intro h <;>
      first | exact href h | exact System.Conc.ofOption_cases (P := Silent s) (fun y hy => sinkPtr_silent hy) h
  | setLevelOfGroup g l =>
    simp only [System.step, System.setLevelOfGroup] at h
    revert h
    (repeat' split) <;> intro h <;>
      first | exact href h | exact System.Conc.ofOption_cases (P := Silent s) (fun y hy => levelPtr_silent hy) h
  | _ => exact ho.elim

/-- a program in which nothing has been logged and this is the state of the logging system -/
def fresh (S : Setup) (c : System.Conc.St) : St :=
  { sys := c, leaf := fun i => SinkFull.init (S.leaf i).conc (S.leaf i).opened, todo := fun _ => [], said := [] }

/-- the thread that configures -/
def main : Tid := 1

theorem fresh_free (S : Setup) (c : System.Conc.St) : Free (fresh S c) main :=
  ⟨rfl, fun i => .inl (by simp [fresh, SinkFull.init, main, SinkConc.workerTid])⟩

theorem fresh_moves {S : Setup} {c c' : System.Conc.St} (h : Reach S (fresh S c)) (hm : Moves main c c') (ho : c'.out = c.out)
    (hw : c'.sys.warned = c.sys.warned) : Reach S (fresh S c') := by
  have h1 := Exec.system (S := S) (fresh S c) main c' (by decide) (fresh_free S c) hm
  have h2 : (fresh S c).after S main c' = fresh S c' := by
    unfold St.after fresh
    simp only [ho, hw, List.drop_length, List.flatMap_nil, List.map_nil, List.append_nil]
    congr 1
    funext x
    by_cases hx : x = main
    · subst hx; simp [upd]
    · simp [upd]
  exact h2 ▸ Reach.next h h1

theorem goto_goto (c : System.Conc.St) (t : Tid) (p q : System.Conc.PC) : (c.goto t p).goto t q = c.goto t q := by
  unfold System.Conc.St.goto
  simp only [System.upd_upd]

theorem goto_self (c : System.Conc.St) (t : Tid) (p : System.Conc.PC) (h : c.pc t = p) : c.goto t p = c := by
  unfold System.Conc.St.goto
  have : upd c.pc t p = c.pc := by
    funext x
    by_cases hx : x = t
    · subst hx; rw [upd_same]; exact h.symm
    · rw [upd_other _ _ hx]
  rw [this]

theorem finish_of_goto (c : System.Conc.St) (t : Tid) (p : System.Conc.PC) (y : Sys) (op : Op) (o : System.Conc.Outcome) :
    (c.goto t p).finish t y op o = c.finish t y op o := by
  unfold System.Conc.St.goto System.Conc.St.finish
  simp only [System.upd_upd]

/-- what the steps of the thread that configures keep -/
structure Keeps (P : System.Conc.St → Prop) : Prop where
  step : ∀ {c}, P c → c.pc main ≠ .idle → (System.Conc.step c main).out = c.out → (System.Conc.step c main).sys.warned = c.sys.warned →
    P (System.Conc.step c main)
  makeGroup : ∀ {c}, P c → ∀ a : Args, c.pc main = .idle → P (c.goto main a.start)
  call : ∀ {c} (op : Op) (fuel : Nat) (v : System.Val) (y : Sys), P c → c.pc main = .idle → System.Conc.isMakeGroup op = false →
    System.step fuel c.sys op = .ret v y → y.warned = c.sys.warned → P (c.finish main y op (.ret v))
  failed : ∀ {c} (op : Op) (fuel : Nat) (y : Sys), P c → c.pc main = .idle → System.Conc.isMakeGroup op = false →
    System.step fuel c.sys op = .throw y → y.warned = c.sys.warned → P (c.finish main y op .thrown)
  configuring : ∀ {c}, P c → c.pc main = .idle → c.sys.configured = false →
    P { c with sys := { c.sys with configured := true }, done := c.done ++ [.configuring] }

/-- the program without the mutex of the logging system -/
theorem keeps_many (S : Setup) : Keeps (fun c => Reach S (fresh S c)) where
  step h hi ho hw := fresh_moves h (Moves.step _ hi) ho hw
  makeGroup h a hi := fresh_moves h (Moves.makeGroup _ a hi) rfl rfl
  call op fuel v y h hi hm hc hw := fresh_moves h (Moves.call _ op fuel v y hi hm hc) rfl hw
  failed op fuel y h hi hm hc hw := fresh_moves h (Moves.failed _ op fuel y hi hm hc) rfl hw
  configuring h hi _ := fresh_moves h (Moves.configuring _ hi) rfl rfl

/-- a step inside `makeGroup` -/
theorem fresh_step {P : System.Conc.St → Prop} (hP : Keeps P) {c : System.Conc.St} {p : System.Conc.PC} (hp : p ≠ .idle) (h : P (c.goto main p)) {c' : System.Conc.St}
    (hs : System.Conc.step (c.goto main p) main = c') (ho : c'.out = c.out) (hw : c'.sys.warned = c.sys.warned) : P c' := by
  have := hP.step h (by show upd c.pc main p main ≠ _; rw [upd_same]; exact hp) (hs ▸ ho) (hs ▸ hw)
  exact hs ▸ this

theorem goto_pc (c : System.Conc.St) (t : Tid) (p : System.Conc.PC) : (c.goto t p).pc t = p := by
  show upd c.pc t p t = p
  rw [upd_same]

/-- from the sink of the new group on -/
theorem fresh_tail {P : System.Conc.St → Prop} (hP : Keeps P) {c : System.Conc.St} (a : Args) (g : System.Group) (h : P (c.goto main (.mkSink a g)))
    {y : Sys} {o : System.Conc.Outcome}
    (hy : (match System.resolve c.sys.sinks a.sink, (g.parent.isSome || a.level.isSome) with
      | some k, true => (System.Conc.insert a
          { g with sink := (k.or g.sink), sinkOv := g.sinkOv || (g.parent.isSome && k.isSome), level := a.level.getD g.level,
                   levelOv := g.levelOv || (g.parent.isSome && a.level.isSome) } c.sys, System.Conc.Outcome.ret (.group c.sys.ngroups))
      | _, _ => (c.sys, .thrown)) = (y, o)) : P (c.finish main y a.op o) := by
  have key : ∀ (k : Option Nat), System.resolve c.sys.sinks a.sink = some k →
      P (c.goto main (.mkLevel a { g with sink := (k.or g.sink), sinkOv := g.sinkOv || (g.parent.isSome && k.isSome) })) := by
    intro k hk
    refine fresh_step hP (by intro e; cases e) h ?_ rfl rfl
    unfold System.Conc.step
    rw [goto_pc]
    dsimp only
    unfold System.resolve at hk
    cases hs : a.sink with
    | none =>
      rw [hs] at hk
      cases hk
      dsimp only
      rw [goto_goto]
      simp
    | some kn =>
      rw [hs] at hk
      dsimp only at hk
      obtain ⟨k', h1, rfl⟩ := Option.map_eq_some_iff.1 hk
      dsimp only
      rw [show (c.goto main (.mkSink a g)).sys = c.sys from rfl, h1]
      dsimp only
      rw [goto_goto]
      cases g.parent <;> simp
  cases hk : System.resolve c.sys.sinks a.sink with
  | none =>
    rw [hk] at hy
    cases hy
    have := fresh_step hP (by intro e; cases e) h (c' := c.finish main c.sys a.op .thrown) ?_ rfl rfl
    · exact this
    unfold System.Conc.step
    rw [goto_pc]
    dsimp only
    unfold System.resolve at hk
    cases hs : a.sink with
    | none => rw [hs] at hk; cases hk
    | some kn =>
      rw [hs] at hk
      dsimp only at hk
      rw [Option.map_eq_none_iff] at hk
      dsimp only
      rw [show (c.goto main (.mkSink a g)).sys = c.sys from rfl, hk]
      dsimp only
      rw [finish_of_goto]
  | some k =>
    rw [hk] at hy
    have h1 := key k hk
    generalize hg1 : ({ g with sink := (k.or g.sink), sinkOv := g.sinkOv || (g.parent.isSome && k.isSome) } : System.Group) = g1 at h1 hy
    have hpar : g1.parent = g.parent := by rw [← hg1]
    cases hl : (g.parent.isSome || a.level.isSome) with
    | false =>
      rw [hl] at hy
      cases hy
      refine fresh_step hP (by intro e; cases e) h1 ?_ rfl rfl
      unfold System.Conc.step
      rw [goto_pc]
      dsimp only
      rw [Bool.or_eq_false_iff] at hl
      cases hal : a.level with
      | some l => rw [hal] at hl; cases hl.2
      | none =>
        dsimp only
        rw [hpar, hl.1]
        simp only [Bool.false_eq_true, if_false]
        rw [finish_of_goto]; rfl
    | true =>
      rw [hl] at hy
      have h2 : P (c.goto main (.mkInsert a ⟨g1.name, g1.parent, g1.sink, g1.sinkOv, a.level.getD g.level, g.levelOv || (g.parent.isSome && a.level.isSome)⟩)) := by
        refine fresh_step hP (by intro e; cases e) h1 ?_ rfl rfl
        unfold System.Conc.step
        rw [goto_pc]
        dsimp only
        cases hal : a.level with
        | some l =>
          dsimp only
          rw [goto_goto]
          subst hg1
          cases g.parent <;> simp
        | none =>
          rw [hal] at hl
          simp only [Option.isSome_none, Bool.or_false] at hl
          dsimp only
          rw [hpar, hl, if_pos rfl, goto_goto]
          subst hg1
          simp
      refine fresh_step hP (by intro e; cases e) h2 ?_ ?_ ?_
      · unfold System.Conc.step
        rw [goto_pc]
        dsimp only
        rw [finish_of_goto]
        subst hg1
        cases hy
        rfl
      · rfl
      · subst hg1; cases hy; rfl

theorem fresh_makeGroup {P : System.Conc.St → Prop} (hP : Keeps P) {c : System.Conc.St} (hw : WF c.sys) (hi : ∀ t, c.pc t = .idle) (h : P c) (a : Args)
    {F : Nat} {y : Sys} {v : System.Val} {o : System.Conc.Outcome}
    (hc : (System.step F c.sys a.op = .ret v y ∧ o = .ret v) ∨ (System.step F c.sys a.op = .throw y ∧ o = .thrown)) :
    P (c.finish main y a.op o) := by
  have hstep : System.step F c.sys a.op = (System.makeGroup a.name a.parent a.sink a.level c.sys).map System.Val.group := rfl
  rw [hstep, System.makeGroup_eq hw.gLt] at hc
  have h0 := hP.makeGroup h a (hi main)
  unfold Args.start at h0
  cases hp : a.parent with
  | none =>
    rw [hp] at h0 hc
    simp only [Option.isSome_none, Bool.false_eq_true, if_false] at h0
    refine fresh_tail hP a _ h0 ?_
    rw [show System.resolve c.sys.groups none = some none from rfl] at hc
    simp only [Option.isSome_none, Bool.false_or] at hc
    simp only [System.Conc.blank, Option.isSome_none, Bool.false_or]
    revert hc
    cases hk : System.resolve c.sys.sinks a.sink with
    | none =>
      intro hc
      rcases hc with ⟨h1, rfl⟩ | ⟨h1, rfl⟩ <;> cases h1
      rfl
    | some k =>
      cases hl : a.level.isSome with
      | false =>
        intro hc
        rcases hc with ⟨h1, rfl⟩ | ⟨h1, rfl⟩ <;> cases h1
        rfl
      | true =>
        intro hc
        rcases hc with ⟨h1, rfl⟩ | ⟨h1, rfl⟩ <;> cases h1
        unfold System.Conc.insert System.newGroup
        cases k <;> cases hal : a.level <;> simp_all
  | some pn =>
    rw [hp] at h0 hc
    simp only [Option.isSome_some, if_true] at h0
    cases hf : c.sys.groups.find pn with
    | none =>
      rw [show System.resolve c.sys.groups (some pn) = none by unfold System.resolve; simp only [hf, Option.map_none]] at hc
      rcases hc with ⟨h1, rfl⟩ | ⟨h1, rfl⟩ <;> cases h1
      refine fresh_step hP (by intro e; cases e) h0 ?_ rfl rfl
      unfold System.Conc.step
      rw [goto_pc]
      dsimp only
      rw [hp]
      dsimp only [Option.bind]
      rw [show (c.goto main (.mkParent a)).sys = c.sys from rfl, hf]
      dsimp only
      rw [finish_of_goto]
    | some p =>
      have h1 : P (c.goto main (.mkInheritSink a p { System.Conc.blank a with parent := some p })) := by
        refine fresh_step hP (by intro e; cases e) h0 ?_ rfl rfl
        unfold System.Conc.step
        rw [goto_pc]
        dsimp only
        rw [hp]
        dsimp only [Option.bind]
        rw [show (c.goto main (.mkParent a)).sys = c.sys from rfl, hf]
        dsimp only
        rw [goto_goto]
      have h2 := fresh_step hP (by intro e; cases e) h1 (c' := c.goto main (.mkInheritLevel a p { System.Conc.blank a with parent := some p, sink := (c.sys.grp p).sink }))
        (by unfold System.Conc.step; rw [goto_pc]; dsimp only; rw [goto_goto]; rfl) rfl rfl
      have h3 := fresh_step hP (by intro e; cases e) h2 (c' := c.goto main (.mkSink a { System.Conc.blank a with parent := some p, sink := (c.sys.grp p).sink, level := (c.sys.grp p).level }))
        (by unfold System.Conc.step; rw [goto_pc]; dsimp only; rw [goto_goto]; rfl) rfl rfl
      refine fresh_tail hP a _ h3 ?_
      rw [show System.resolve c.sys.groups (some pn) = some (some p) by unfold System.resolve; simp only [hf, Option.map_some]] at hc
      simp only [Option.isSome_some, Bool.true_or] at hc
      simp only [Option.isSome_some, Bool.true_or]
      revert hc
      generalize System.resolve c.sys.sinks a.sink = kk
      cases kk with
      | none =>
        intro hc
        rcases hc with ⟨h1, rfl⟩ | ⟨h1, rfl⟩ <;> cases h1
        rfl
      | some k =>
        intro hc
        rcases hc with ⟨h1, rfl⟩ | ⟨h1, rfl⟩ <;> cases h1
        unfold System.Conc.insert System.newGroup
        cases k <;> cases a.level <;> simp [System.Conc.blank]

/-- the state of the logging system alone -/
def idleWith (y : Sys) (done : List System.Conc.Done) : System.Conc.St := { sys := y, pc := fun _ => .idle, done := done, out := [] }

/-- what a configurator does to a new system, one thread can do in a program -/
theorem configured_by {P : System.Conc.St → Prop} (hP : Keeps P) (hinit : ∀ debug ord, (∀ l, (ord l).Perm l) → P (System.Conc.init debug ord))
    {y : Sys} (h : ReachBy confOp y) : WF y ∧ y.nloggers = 0 ∧ y.warned = [] ∧ ∃ done, P (idleWith y done) := by
  have hwf : ∀ {y}, ReachBy confOp y → WF y := fun h => h.wf
  have hfin : ∀ (s s' : Sys) (done : List System.Conc.Done) (op : Op) (o : System.Conc.Outcome),
      (idleWith s done).finish main s' op o = idleWith s' (done ++ [.call op o]) := by
    intro s s' done op o
    unfold idleWith System.Conc.St.finish
    simp only
    congr 1
    funext x
    by_cases hx : x = main
    · subst hx; rw [upd_same]
    · rw [upd_other _ _ hx]
  induction h with
  | init debug ord ho => exact ⟨hwf (.init debug ord ho), rfl, rfl, [], hinit debug ord ho⟩
  | @configuring s h ih =>
    obtain ⟨_, h1, h2, done, h3⟩ := ih
    cases hc : s.configured with
    | false => exact ⟨hwf (.configuring h), h1, h2, done ++ [.configuring], by have := hP.configuring h3 rfl hc; exact this⟩
    | true =>
      refine ⟨hwf (.configuring h), h1, h2, done, ?_⟩
      rw [show ({ s with configured := true } : Sys) = s by rw [← hc]]
      exact h3
  | @call s s' fuel op v h hok hc ih =>
    obtain ⟨hw, h1, h2, done, h3⟩ := ih
    have hq := step_silent hok (.inl hc)
    refine ⟨hwf (.call h hok hc), hq.1.trans h1, hq.2.trans h2, done ++ [.call op (.ret v)], ?_⟩
    rw [← hfin]
    cases hm : System.Conc.isMakeGroup op with
    | false => exact hP.call op fuel v s' h3 rfl hm hc hq.2
    | true =>
      cases op with
      | makeGroup n p k l => exact fresh_makeGroup hP (c := idleWith s done) hw (fun _ => rfl) h3 ⟨n, p, k, l⟩ (.inl ⟨hc, rfl⟩)
      | _ => cases hm
  | @failed s s' fuel op h hok hc ih =>
    obtain ⟨hw, h1, h2, done, h3⟩ := ih
    have hq := step_silent (v := .unit) hok (.inr hc)
    refine ⟨hwf (.failed h hok hc), hq.1.trans h1, hq.2.trans h2, done ++ [.call op .thrown], ?_⟩
    rw [← hfin]
    cases hm : System.Conc.isMakeGroup op with
    | false => exact hP.failed op fuel s' h3 rfl hm hc hq.2
    | true =>
      cases op with
      | makeGroup n p k l =>
        exact fresh_makeGroup hP (c := idleWith s done) (v := .unit) hw (fun _ => rfl) h3 ⟨n, p, k, l⟩ (.inr ⟨hc, rfl⟩)
      | _ => cases hm

theorem configured_reach (S : Setup) {y : Sys} (h : ReachBy confOp y) :
    WF y ∧ y.nloggers = 0 ∧ y.warned = [] ∧ ∃ done, Reach S (configured S y done) :=
  configured_by (keeps_many S) (fun debug ord ho => .init debug ord ho) h

/-! ### the sinks of a document -/

theorem conf_reach {W : Yaml.World} {F : Nat} {what : Text} {c : Yaml.Configurator} {debug : Bool} {ord : List Nat → List Nat}
    (ho : ∀ l, (ord l).Perm l) {b : Bool} {r : Yaml.Result} {y : Yaml.St} (h : Yaml.configure W F what c (Yaml.new debug ord b) = .ok r y) :
    ReachBy confOp y.sys := by
  refine Yaml.configure_tri (Yaml.keepsAny_applyOn (ok := confOp) (fun s op hop => ?_) (fun _ _ => trivial) (fun _ _ => trivial) W F c) h
    (.configuring (.init debug ord ho))
  cases op <;> first | trivial | exact hop

theorem conf_sinks {W : Yaml.World} {F : Nat} {what : Text} {c : Yaml.Configurator} {debug : Bool} {ord : List Nat → List Nat} {b : Bool}
    {r : Yaml.Result} {y : Yaml.St} (h : Yaml.configure W F what c (Yaml.new debug ord b) = .ok r y) :
    Yaml.SinksOk y ∧ ∀ k cf, (y.specs k).cfg = some cf → Yaml.UsableCfg cf := by
  have h0 : Yaml.SinksOk (Yaml.new debug ord b) := by
    refine ⟨fun n k hf => ?_, fun _ _ => rfl, fun k lv subs h => by cases h⟩
    simp only [Yaml.new, System.new] at hf ⊢
    revert hf
    simp only [System.Table.find, List.find?]
    split
    · intro e; cases e; decide
    · intro e; cases e
  have h1 := Yaml.sinksGrow_configure h h0
  refine ⟨h1.1, fun k cf hk => ?_⟩
  have hu := Yaml.configure_tri (Yaml.newUsable_applyOn W F c) h
  by_cases hlt : k < y.sys.nsinks
  · by_cases hk1 : (Yaml.new debug ord b).sys.nsinks ≤ k
    · exact hu.2.2 k hk1 hlt cf hk
    · rw [hu.2.1 k (Nat.not_le.1 hk1)] at hk
      cases hk
  · rw [h1.1.beyond k (Nat.not_lt.1 hlt)] at hk
    cases hk

/-! ### logging leaves the configuration as it is -/

/-- what this log call makes its thread say -/
def saidFor (S : Setup) (y : Sys) (G : Text → Text) (c : LogCall) : List Said :=
  match y.groups.find (G c.logger) with
  | none => []
  | some g =>
    if passes (y.grp g).level c.record then
      match (y.grp g).sink with
      | none => []
      | some k => [⟨c.thread, .log, k, S.msg c.logger c.record⟩]
    else []

/-- what the thread will still say in the log call it is in -/
def pending (S : Setup) (y : Sys) (G : Text → Text) (s : System.Conc.St) (t : Tid) : List Said :=
  match s.pc t with
  | .log1 i r | .log2 i r => saidFor S y G ⟨t, (s.sys.lgr i).name, r⟩
  | _ => []

/-- inside no call of `makeGroup`; a log call that goes to its sink is admitted -/
def LogPc (s : Sys) : System.Conc.PC → Prop
  | .idle => True
  | .log1 i _ | .log3 i | .log4 i => i < s.nloggers
  | .log2 i r => i < s.nloggers ∧ passes (s.lgr i).level r
  | _ => False

/-- the loggers are as the configuration says -/
structure AsConfigured (G : Text → Text) (y s : Sys) : Prop where
  grp : s.grp = y.grp
  groups : s.groups = y.groups
  lgr : ∀ i, i < s.nloggers → ∃ g, y.groups.find (G (s.lgr i).name) = some g ∧ (s.lgr i).level = (y.grp g).level ∧ (s.lgr i).sink = (y.grp g).sink

structure LogInv (S : Setup) (G : Text → Text) (y : Sys) (calls : List LogCall) (s : St) : Prop where
  reach : Reach S s
  sys : AsConfigured G y s.sys.sys
  live : ∀ i, s.sys.sys.alive i = true → i < s.sys.sys.nloggers
  pcs : ∀ t, LogPc s.sys.sys (s.sys.pc t)
  hist : ∀ t, (calls.filter fun c => c.thread = t).flatMap (saidFor S y G) = (s.said.filter fun x => x.thread = t) ++ pending S y G s.sys t

theorem newLogger_eq (h : Nat → System.Group) (n : Text) (g : Nat) :
    (System.Logger.new h n g).name = n ∧ (System.Logger.new h n g).sink = (h g).sink ∧ (System.Logger.new h n g).level = (h g).level := by
  unfold System.Logger.new System.Logger.setSinkFromGroup System.Logger.setLevelFromGroup
  cases (h g).sink <;> exact ⟨rfl, rfl, rfl⟩

/-- `getLogger` for a registered group -/
theorem getLogger_configured {F : Nat} {s s' : Sys} {n group : Text} {g : Nat} {v : System.Val} (hs : group ≠ System.star)
    (hg : s.groups.find group = some g) (h : System.step F s (.getLogger n group none none) = .ret v s') :
    s' = s ∨ s' = System.created s n g none none s.warned := by
  obtain ⟨i, h1, _⟩ := System.map_ret h
  rw [System.getLogger_unfold] at h1
  split at h1
  · cases h1
  split at h1
  · cases h1; exact .inl rfl
  rw [if_neg (fun e => hs e.1)] at h1
  try rw [if_neg hs] at h1
  simp only [System.getGroup, hg] at h1
  cases h1
  exact .inr rfl

/-- what thread `t` does adds exactly this to the history, and the loggers that existed remain as they are -/
structure UsesInv (S : Setup) (G : Text → Text) (y : Sys) (t : Tid) (new : List LogCall) (s s' : System.Conc.St) (add : List Said) : Prop where
  sys : AsConfigured G y s'.sys
  live : ∀ i, s'.sys.alive i = true → i < s'.sys.nloggers
  size : s.sys.nloggers ≤ s'.sys.nloggers
  same : ∀ i, i < s.sys.nloggers → s'.sys.lgr i = s.sys.lgr i
  pcs : LogPc s'.sys (s'.pc t)
  mine : ∀ c ∈ new, c.thread = t
  said : ∀ x ∈ add, x.thread = t
  hist : pending S y G s t ++ new.flatMap (saidFor S y G) = add ++ pending S y G s' t

theorem uses_inv {S : Setup} {G : Text → Text} {y : Sys} (hG : ∀ n, G n ≠ System.star ∧ ∃ g, y.groups.find (G n) = some g) {s : St}
    (ha : AsConfigured G y s.sys.sys) (hlive : ∀ i, s.sys.sys.alive i = true → i < s.sys.sys.nloggers) {t : Tid} (hp : LogPc s.sys.sys (s.sys.pc t))
    {new : List LogCall} {sys' : System.Conc.St} (hu : Uses G t s.sys new sys') :
    ∃ add, (s.after S t sys').said = s.said ++ add ∧ UsesInv S G y t new s.sys sys' add := by
  cases hu with
  | getLogger n fuel v sys' hi hc =>
    obtain ⟨g, hg⟩ := (hG n).2
    have hg' : s.sys.sys.groups.find (G n) = some g := by rw [ha.groups]; exact hg
    refine ⟨[], ?_, ?_⟩
    · unfold St.after System.Conc.St.finish
      simp only [List.drop_length, List.flatMap_nil]
      rcases getLogger_configured (hG n).1 hg' hc with rfl | rfl
      · simp
      · simp [System.created]
    · have hpend : ∀ z : Sys, pending S y G (s.sys.finish t z (.getLogger n (G n) none none) (.ret v)) t = [] := by
        intro z
        unfold pending System.Conc.St.finish
        simp only [upd_same]
      have hpend0 : pending S y G s.sys t = [] := by unfold pending; rw [hi]
      rcases getLogger_configured (hG n).1 hg' hc with rfl | rfl
      · refine ⟨ha, hlive, Nat.le_refl _, fun _ _ => rfl, ?_, (fun _ h => by cases h), (fun _ h => by cases h), ?_⟩
        · show LogPc _ (upd s.sys.pc t .idle t); rw [upd_same]; trivial
        · rw [hpend, hpend0]; rfl
      · have hnew := newLogger_eq s.sys.sys.grp n g
        refine ⟨⟨ha.grp, ha.groups, fun i hi => ?_⟩, fun i hi => ?_, Nat.le_succ _, fun i hi => ?_, ?_, (fun _ h => by cases h), (fun _ h => by cases h), ?_⟩
        · show ∃ g', y.groups.find (G (upd s.sys.sys.lgr s.sys.sys.nloggers _ i).name) = some g' ∧ (upd s.sys.sys.lgr s.sys.sys.nloggers _ i).level = _ ∧
            (upd s.sys.sys.lgr s.sys.sys.nloggers _ i).sink = _
          by_cases hx : i = s.sys.sys.nloggers
          · subst hx
            rw [upd_same]
            refine ⟨g, ?_, ?_, ?_⟩
            · rw [show (System.mkLogger s.sys.sys n g none none).name = n from hnew.1]; exact hg
            · rw [← ha.grp]; exact hnew.2.2
            · rw [← ha.grp]; exact hnew.2.1
          · rw [upd_other _ _ hx]
            exact ha.lgr i (Nat.lt_of_le_of_ne (Nat.lt_succ_iff.1 hi) hx)
        · have hi : upd s.sys.sys.alive s.sys.sys.nloggers true i = true := hi
          show i < s.sys.sys.nloggers + 1
          by_cases hx : i = s.sys.sys.nloggers
          · omega
          · rw [upd_other _ _ hx] at hi
            exact Nat.lt_succ_of_lt (hlive i hi)
        · show upd s.sys.sys.lgr s.sys.sys.nloggers _ i = _
          rw [upd_other _ _ (Nat.ne_of_lt hi)]
        · show LogPc _ (upd s.sys.pc t .idle t); rw [upd_same]; trivial
        · rw [hpend, hpend0]; rfl
  | drop i fuel v sys' hi hc =>
    cases hc
    refine ⟨[], ?_, ⟨ha.grp, ha.groups, ha.lgr⟩, fun j hj => ?_, Nat.le_refl _, fun _ _ => rfl, ?_, (fun _ h => by cases h), (fun _ h => by cases h), ?_⟩
    · unfold St.after System.Conc.St.finish
      simp only [List.drop_length, List.flatMap_nil, List.map_nil, List.append_nil]
    · have hj : upd s.sys.sys.alive i false j = true := hj
      by_cases hx : j = i
      · subst hx; rw [upd_same] at hj; cases hj
      · rw [upd_other _ _ hx] at hj; exact hlive j hj
    · show LogPc _ (upd s.sys.pc t .idle t); rw [upd_same]; trivial
    · unfold pending System.Conc.St.finish
      simp only [upd_same, hi]
      rfl
  | log i r hi hal =>
    refine ⟨[], ?_, ⟨ha.grp, ha.groups, ha.lgr⟩, hlive, Nat.le_refl _, fun _ _ => rfl, ?_, ?_, (fun _ h => by cases h), ?_⟩
    · unfold St.after System.Conc.St.goto
      simp only [List.drop_length, List.flatMap_nil, List.map_nil, List.append_nil]
    · show LogPc _ (upd s.sys.pc t _ t); rw [upd_same]; exact hlive i hal
    · intro c hc; rw [List.mem_singleton] at hc; subst hc; rfl
    · unfold pending System.Conc.St.goto
      simp only [upd_same, hi]
      simp
  | flush i hi hal =>
    refine ⟨[], ?_, ⟨ha.grp, ha.groups, ha.lgr⟩, hlive, Nat.le_refl _, fun _ _ => rfl, ?_, (fun _ h => by cases h), (fun _ h => by cases h), ?_⟩
    · unfold St.after System.Conc.St.goto
      simp only [List.drop_length, List.flatMap_nil, List.map_nil, List.append_nil]
    · show LogPc _ (upd s.sys.pc t _ t); rw [upd_same]; exact hlive i hal
    · unfold pending System.Conc.St.goto
      simp only [upd_same, hi]
      rfl
  | step hi =>
    generalize hpc : s.sys.pc t = p at hp hi
    cases p with
    | idle => exact absurd rfl hi
    | log1 i r =>
      have hp : i < s.sys.sys.nloggers := hp
      have e : System.Conc.step s.sys t = s.sys.goto t (if r.level ≤ (s.sys.sys.lgr i).level ∧ r.level ≠ .off ∧ r.level ≠ .ignore then .log2 i r else .idle) := by
        unfold System.Conc.step; rw [hpc]
      rw [e]
      obtain ⟨g, hg, hl, _⟩ := ha.lgr i hp
      refine ⟨[], ?_, ⟨ha.grp, ha.groups, ha.lgr⟩, hlive, Nat.le_refl _, fun _ _ => rfl, ?_, (fun _ h => by cases h), (fun _ h => by cases h), ?_⟩
      · unfold St.after System.Conc.St.goto
        simp only [List.drop_length, List.flatMap_nil, List.map_nil, List.append_nil]
      · show LogPc _ (upd s.sys.pc t _ t)
        rw [upd_same]
        by_cases hpass : r.level ≤ (s.sys.sys.lgr i).level ∧ r.level ≠ .off ∧ r.level ≠ .ignore
        · rw [if_pos hpass]; exact ⟨hp, hpass⟩
        · rw [if_neg hpass]; trivial
      · unfold pending System.Conc.St.goto
        simp only [upd_same, hpc]
        by_cases hpass : r.level ≤ (s.sys.sys.lgr i).level ∧ r.level ≠ .off ∧ r.level ≠ .ignore
        · rw [if_pos hpass]
          simp
        · rw [if_neg hpass]
          simp only [List.flatMap_nil, List.append_nil]
          unfold saidFor
          simp only [hg]
          rw [if_neg]
          rw [← hl]; exact hpass
    | log2 i r =>
      obtain ⟨hlt, hpass⟩ := hp
      obtain ⟨g, hg, hl, hk⟩ := ha.lgr i hlt
      have hsf : saidFor S y G ⟨t, (s.sys.sys.lgr i).name, r⟩ =
          match (s.sys.sys.lgr i).sink with | none => [] | some k => [⟨t, .log, k, S.msg (s.sys.sys.lgr i).name r⟩] := by
        unfold saidFor
        simp only [hg]
        rw [if_pos (by rw [← hl]; exact hpass), hk]
      cases hsink : (s.sys.sys.lgr i).sink with
      | none =>
        have e : System.Conc.step s.sys t = { s.sys with pc := upd s.sys.pc t .idle, out := s.sys.out ++ [.null t] } := by
          unfold System.Conc.step; rw [hpc]; simp only [hsink]
        rw [e]
        refine ⟨[], ?_, ⟨ha.grp, ha.groups, ha.lgr⟩, hlive, Nat.le_refl _, fun _ _ => rfl, ?_, (fun _ h => by cases h), (fun _ h => by cases h), ?_⟩
        · unfold St.after
          simp [saidOf]
        · show LogPc _ (upd s.sys.pc t _ t); rw [upd_same]; trivial
        · unfold pending
          simp only [upd_same, hpc, hsf, hsink]
          rfl
      | some k =>
        have e : System.Conc.step s.sys t = { s.sys with pc := upd s.sys.pc t (.log3 i), out := s.sys.out ++ [.push t k r] } := by
          unfold System.Conc.step; rw [hpc]; simp only [hsink]
        rw [e]
        refine ⟨[⟨t, .log, k, S.msg (s.sys.sys.lgr i).name r⟩], ?_, ⟨ha.grp, ha.groups, ha.lgr⟩, hlive, Nat.le_refl _, fun _ _ => rfl, ?_, (fun _ h => by cases h), ?_, ?_⟩
        · unfold St.after nameFor
          simp [saidOf, hpc]
        · show LogPc _ (upd s.sys.pc t _ t); rw [upd_same]; exact hlt
        · intro x hx; rw [List.mem_singleton] at hx; subst hx; rfl
        · unfold pending
          simp only [upd_same, hpc, hsf, hsink]
          rfl
    | log3 i =>
      have hp : i < s.sys.sys.nloggers := hp
      have e : System.Conc.step s.sys t = s.sys.goto t (if Level.critical ≤ (s.sys.sys.lgr i).level then .log4 i else .idle) := by
        unfold System.Conc.step; rw [hpc]
      rw [e]
      refine ⟨[], ?_, ⟨ha.grp, ha.groups, ha.lgr⟩, hlive, Nat.le_refl _, fun _ _ => rfl, ?_, (fun _ h => by cases h), (fun _ h => by cases h), ?_⟩
      · unfold St.after System.Conc.St.goto
        simp only [List.drop_length, List.flatMap_nil, List.map_nil, List.append_nil]
      · show LogPc _ (upd s.sys.pc t _ t)
        rw [upd_same]
        split
        · exact hp
        · trivial
      · unfold pending System.Conc.St.goto
        simp only [upd_same, hpc]
        by_cases hq : Level.critical ≤ (s.sys.sys.lgr i).level
        · rw [if_pos hq]; rfl
        · rw [if_neg hq]; rfl
    | log4 i =>
      cases hsink : (s.sys.sys.lgr i).sink with
      | none =>
        have e : System.Conc.step s.sys t = { s.sys with pc := upd s.sys.pc t .idle, out := s.sys.out ++ [.null t] } := by
          unfold System.Conc.step; rw [hpc]; simp only [hsink]
        rw [e]
        refine ⟨[], ?_, ⟨ha.grp, ha.groups, ha.lgr⟩, hlive, Nat.le_refl _, fun _ _ => rfl, ?_, (fun _ h => by cases h), (fun _ h => by cases h), ?_⟩
        · unfold St.after
          simp [saidOf]
        · show LogPc _ (upd s.sys.pc t _ t); rw [upd_same]; trivial
        · unfold pending
          simp only [upd_same, hpc]
          rfl
      | some k =>
        have e : System.Conc.step s.sys t = { s.sys with pc := upd s.sys.pc t .idle, out := s.sys.out ++ [.flush t k] } := by
          unfold System.Conc.step; rw [hpc]; simp only [hsink]
        rw [e]
        refine ⟨[], ?_, ⟨ha.grp, ha.groups, ha.lgr⟩, hlive, Nat.le_refl _, fun _ _ => rfl, ?_, (fun _ h => by cases h), (fun _ h => by cases h), ?_⟩
        · unfold St.after
          simp [saidOf]
        · show LogPc _ (upd s.sys.pc t _ t); rw [upd_same]; trivial
        · unfold pending
          simp only [upd_same, hpc]
          rfl
    | _ => exact hp.elim

theorem uses_moves {G : Text → Text} {t : Tid} {s s' : System.Conc.St} {new : List LogCall} (h : Uses G t s new s') : Moves t s s' := by
  cases h with
  | getLogger n fuel v sys' hi hc => exact .call _ _ fuel v _ hi rfl hc
  | drop i fuel v sys' hi hc => exact .call _ _ fuel v _ hi rfl hc
  | log i r hi ha => exact .log _ i r hi ha
  | flush i hi ha => exact .flush _ i hi ha
  | step hi => exact .step _ hi

theorem filter_same {α : Type} {p : α → Bool} {l : List α} (h : ∀ x ∈ l, p x = true) : l.filter p = l := List.filter_eq_self.2 h
theorem filter_none' {α : Type} {p : α → Bool} {l : List α} (h : ∀ x ∈ l, p x = false) : l.filter p = [] :=
  List.filter_eq_nil_iff.2 fun x hx e => by rw [h x hx] at e; cases e

theorem logging_inv {S : Setup} {G : Text → Text} {y : Sys} (hG : ∀ n, G n ≠ System.star ∧ ∃ g, y.groups.find (G n) = some g) (hn : y.nloggers = 0)
    (hw : WF y) {done : List Done} (h0 : Reach S (configured S y done)) {calls : List LogCall} {s : St}
    (h : Logging S G (configured S y done) calls s) : LogInv S G y calls s := by
  induction h with
  | start =>
    refine ⟨h0, ⟨rfl, rfl, fun i hi => ?_⟩, fun i hi => (hw.live i hi).1, fun _ => trivial, fun _ => rfl⟩
    have hi : i < y.nloggers := hi
    omega
  | @other calls s s' h he hs hsaid ih =>
    refine ⟨.next ih.reach he, hs ▸ ih.sys, hs ▸ ih.live, hs ▸ ih.pcs, fun t => ?_⟩
    rw [hs, hsaid]; exact ih.hist t
  | @system calls new s t sys' h ht hf hu ih =>
    obtain ⟨add, h1, h2⟩ := uses_inv hG (S := S) ih.sys ih.live (ih.pcs t) hu
    have hm := uses_moves hu
    have hother : ∀ u, u ≠ t → pending S y G sys' u = pending S y G s.sys u := by
      intro u hu'
      unfold pending
      rw [hm.pc_other hu']
      have hp := ih.pcs u
      cases hpc : s.sys.pc u with
      | log1 i r => rw [hpc] at hp; simp only; rw [h2.same i hp]
      | log2 i r => rw [hpc] at hp; simp only; rw [h2.same i hp.1]
      | _ => rfl
    refine ⟨.next ih.reach (.system s t sys' ht hf hm), h2.sys, h2.live, fun u => ?_, fun u => ?_⟩
    · by_cases hut : u = t
      · subst hut; exact h2.pcs
      · have hp := ih.pcs u
        show LogPc sys'.sys (sys'.pc u)
        rw [hm.pc_other hut]
        cases hpc : s.sys.pc u with
        | log2 i r => rw [hpc] at hp; exact ⟨Nat.lt_of_lt_of_le hp.1 h2.size, by rw [h2.same i hp.1]; exact hp.2⟩
        | log1 i r => rw [hpc] at hp; exact Nat.lt_of_lt_of_le hp h2.size
        | log3 i => rw [hpc] at hp; exact Nat.lt_of_lt_of_le hp h2.size
        | log4 i => rw [hpc] at hp; exact Nat.lt_of_lt_of_le hp h2.size
        | idle => trivial
        | _ => rw [hpc] at hp; exact hp.elim
    · rw [h1, List.filter_append, List.filter_append, List.flatMap_append, ih.hist u]
      show _ = _ ++ pending S y G sys' u
      by_cases hut : u = t
      · subst hut
        rw [filter_same (l := new) (fun c hc => decide_eq_true (h2.mine c hc)), filter_same (l := add) (fun x hx => decide_eq_true (h2.said x hx)),
          List.append_assoc, h2.hist, List.append_assoc]
      · rw [filter_none' (l := new) (fun c hc => decide_eq_false (fun e => hut (e.symm.trans (h2.mine c hc)))),
          filter_none' (l := add) (fun x hx => decide_eq_false (fun e => hut (e.symm.trans (h2.said x hx)))), hother u hut]
        simp

end Many
end Soralog
