import Verif.Props.SystemCalls
/-!
# C44, C45, C46, C60 and the findings C63–C66
-/
namespace Soralog
namespace System

open Hierarchy

/-! ## who is changed by a call -/

/-- the call is a method call on logger `i` -/
inductive Addresses (s : Sys) (i : Nat) : Op → Method → Prop
  | setGroup {n gn : Text} {g : Nat} (hn : (s.lgr i).name = n) (hg : s.groups.find gn = some g) :
      Addresses s i (.setGroupOfLogger n gn) (.setGroup g)
  | setSink {n kn : Text} {k : Nat} (hn : (s.lgr i).name = n) (hk : s.sinks.find kn = some k) :
      Addresses s i (.setSinkOfLogger n kn) (.setSink k)
  | resetSink {n : Text} (hn : (s.lgr i).name = n) : Addresses s i (.resetSinkOfLogger n) (.setSinkFromGroup (s.lgr i).group)
  | setLevel {n : Text} {v : Level} (hn : (s.lgr i).name = n) : Addresses s i (.setLevelOfLogger n v) (.setLevel v)
  | resetLevel {n : Text} (hn : (s.lgr i).name = n) : Addresses s i (.resetLevelOfLogger n) (.setLevelFromGroup (s.lgr i).group)
  | handle {m : Method} : Addresses s i (.onHandle i m) m

inductive Effect (s s' : Sys) : Op → Prop
  | level {op : Op} {n : Text} {g : Nat} {l : Option Level} (hg : s.groups.find n = some g)
      (ho : (∃ v, l = some v ∧ op = .setLevelOfGroup n v) ∨ (l = none ∧ op = .resetLevelOfGroup n)) (h : LevelSet g l s s') : Effect s s' op
  | sink {op : Op} {n : Text} {g : Nat} {k : Option Nat} (hg : s.groups.find n = some g)
      (ho : (∃ kn k', k = some k' ∧ s.sinks.find kn = some k' ∧ op = .setSinkOfGroup n kn) ∨ (k = none ∧ op = .resetSinkOfGroup n))
      (h : SinkSet g k s s') : Effect s s' op
  | parent {op : Op} {g : Nat} {p : Option Nat} (h : ParentSet g p s s') : Effect s s' op
  | group {op : Op} {gr : Group} (hg : s'.grp = upd s.grp s.ngroups gr) (hl : s'.lgr = s.lgr) : Effect s s' op
  | logger {op : Op} {i : Nat} {m : Method} (ha : Addresses s i op m) (hg : s'.grp = s.grp)
      (hl : s'.lgr = upd s.lgr i ((s.lgr i).call s.grp m)) : Effect s s' op
  | create {op : Op} {l : Logger} (hg : s'.grp = s.grp) (hl : s'.lgr = upd s.lgr s.nloggers l) : Effect s s' op
  | none {op : Op} (hg : s'.grp = s.grp) (hl : s'.lgr = s.lgr) : Effect s s' op

theorem step_effect {s s' : Sys} (hw : WF s) {op : Op} {fuel : Nat} {v : Val} (hc : step fuel s op = .ret v s') :
    Effect s s' op := by
  have hlog : ∀ {name erases up} {m : Nat → Method}, (onLogger name erases up s).map Val.bool = .ret v s' →
      (∀ i, up (s.lgr i) = (s.lgr i).call s.grp (m i)) → (∀ i, (s.lgr i).name = name → Addresses s i op (m i)) → Effect s s' op := by
    intro name erases up m hc hup ha
    obtain ⟨b, hb, _⟩ := map_ret hc
    rcases onLogger_ret hb with ⟨_, i, h1, h2, rfl⟩ | ⟨_, rfl | ⟨i, h1, h2, rfl⟩⟩
    · exact .logger (i := i) (m := m i) (ha i (hw.lLt _ _ h1).2) rfl (by rw [hup])
    · exact .none rfl rfl
    · exact .none rfl rfl
  have href : ∀ {b : Bool}, (Res.ret b s).map Val.bool = .ret v s' → Effect s s' op := by
    intro b hc; cases hc; exact .none rfl rfl
  cases op with
  | makeSink n => cases hc; exact .none rfl rfl
  | makeGroup n p k l =>
    simp only [step, makeGroup_eq hw.gLt] at hc
    split at hc
    · cases hc; exact .group rfl rfl
    · cases hc
  | setFallbackGroup n =>
    simp only [step, setFallbackGroup] at hc
    split at hc
    · exact href hc
    · cases hc; exact .none rfl rfl
  | getLogger n g k l =>
    obtain ⟨i, h1, _⟩ := map_ret hc
    rcases (getLogger_ret h1).2 with ⟨_, rfl⟩ | ⟨_, _, g, ws, _, rfl⟩
    · exact .none rfl rfl
    · exact .create rfl rfl
  | setParentOfGroup g p =>
    simp only [step, setParentOfGroup] at hc
    split at hc
    · exact href hc
    · split at hc
      · exact href hc
      · split at hc
        · cases hc
        · exact href hc
        · exact .parent (setParentOfGroupPtr_spec hw.gU hw.ord (parent_call hc).2)
  | unsetParentOfGroup g =>
    simp only [step, unsetParentOfGroup] at hc
    split at hc
    · exact href hc
    · exact .parent (setParentOfGroupPtr_spec hw.gU hw.ord (parent_call hc).2)
  | setSinkOfGroup g k =>
    simp only [step, setSinkOfGroup, getSink] at hc
    split at hc
    · exact href hc
    · rename_i k' hk
      split at hc
      · exact href hc
      · rename_i g' hg
        exact .sink hg (.inl ⟨k, k', rfl, hk, rfl⟩) (setSinkOfGroupPtr_spec hw.gU hw.ord (sink_call hc).2)
  | resetSinkOfGroup g =>
    simp only [step, resetSinkOfGroup] at hc
    split at hc
    · exact href hc
    · rename_i g' hg
      exact .sink hg (.inr ⟨rfl, rfl⟩) (setSinkOfGroupPtr_spec hw.gU hw.ord (sink_call hc).2)
  | setLevelOfGroup g l =>
    simp only [step, setLevelOfGroup] at hc
    split at hc
    · exact href hc
    · rename_i g' hg
      exact .level hg (.inl ⟨l, rfl, rfl⟩) (setLevelOfGroupPtr_spec hw.gU hw.ord (level_call hc).2)
  | resetLevelOfGroup g =>
    simp only [step, resetLevelOfGroup] at hc
    split at hc
    · exact href hc
    · rename_i g' hg
      exact .level hg (.inr ⟨rfl, rfl⟩) (setLevelOfGroupPtr_spec hw.gU hw.ord (level_call hc).2)
  | setGroupOfLogger l g =>
    simp only [step, setGroupOfLogger, getGroup] at hc
    split at hc
    · exact href hc
    · rename_i g' hg
      exact hlog (m := fun _ => .setGroup g') hc (fun _ => rfl) fun i hn => .setGroup hn hg
  | setSinkOfLogger l k =>
    simp only [step, setSinkOfLogger, getSink] at hc
    split at hc
    · exact href hc
    · rename_i k' hk
      exact hlog (m := fun _ => .setSink k') hc (fun _ => rfl) fun i hn => .setSink hn hk
  | resetSinkOfLogger l =>
    exact hlog (m := fun i => .setSinkFromGroup (s.lgr i).group) hc (fun _ => rfl) fun i hn => .resetSink hn
  | setLevelOfLogger l v => exact hlog (m := fun _ => .setLevel v) hc (fun _ => rfl) fun i hn => .setLevel hn
  | resetLevelOfLogger l =>
    exact hlog (m := fun i => .setLevelFromGroup (s.lgr i).group) hc (fun _ => rfl) fun i hn => .resetLevel hn
  | onHandle i m =>
    simp only [step] at hc
    split at hc
    · cases hc; exact .logger (i := i) (m := m) .handle rfl rfl
    · cases hc; exact .none rfl rfl
  | drop i => cases hc; exact .none rfl rfl

/-! ## C44 -/

/-- calls that are about the level of logger `i` -/
def aboutLevelOf (s : Sys) (i : Nat) : Op → Prop
  | .setLevelOfLogger n _ => n = (s.lgr i).name
  | .resetLevelOfLogger n => n = (s.lgr i).name
  | .onHandle j (.setLevel _) => j = i
  | .onHandle j .resetLevel => j = i
  | .onHandle j (.setLevelFromGroup _) => j = i
  | _ => False

/-- calls that are about the sink of logger `i` -/
def aboutSinkOf (s : Sys) (i : Nat) : Op → Prop
  | .setSinkOfLogger n _ => n = (s.lgr i).name
  | .resetSinkOfLogger n => n = (s.lgr i).name
  | .onHandle j (.setSink _) => j = i
  | .onHandle j .resetSink => j = i
  | .onHandle j (.setSinkFromGroup _) => j = i
  | _ => False

theorem setGroup_sticky (l : Logger) (h : Nat → Group) (g : Nat) :
    (l.levelOv = true → (l.setGroup h g).level = l.level ∧ (l.setGroup h g).levelOv = true) ∧
    (l.sinkOv = true → (l.setGroup h g).sink = l.sink ∧ (l.setGroup h g).sinkOv = true) := by
  unfold Logger.setGroup Logger.setSinkFromGroup Logger.setLevelFromGroup
  rcases l with ⟨a, b, c, d, e, f⟩
  cases hs : (h g).sink <;> cases d <;> cases f <;> simp

/-- **C44**: an overridden level of a live logger is not changed by any call that is not about the level of this very
logger (in particular by no call on its group, nor by moving it to another group). -/
theorem C44_logger_level_sticky {s s' : Sys} (h : AnyReach s) {i : Nat} (hi : s.alive i = true)
    (hov : (s.lgr i).levelOv = true) {op : Op} (hop : ¬ aboutLevelOf s i op) {fuel : Nat} {v : Val}
    (hc : step fuel s op = .ret v s') : (s'.lgr i).level = (s.lgr i).level ∧ (s'.lgr i).levelOv = true := by
  have hlt := (h.wf.live i hi).1
  cases step_effect h.wf hc with
  | level hg ho hs => rw [(hs.lshape i).2.2.2.2.2 hov]; exact ⟨rfl, hov⟩
  | sink hg ho hs => exact ⟨(hs.lshape i).2.2.1, by rw [(hs.lshape i).2.2.2.1, hov]⟩
  | parent hs => exact ⟨(hs.lshape i).2.2.2.2.1 hov, by rw [(hs.lshape i).2.2.1, hov]⟩
  | group _ hl => rw [hl]; exact ⟨rfl, hov⟩
  | none _ hl => rw [hl]; exact ⟨rfl, hov⟩
  | create _ hl => rw [hl, upd_other _ _ (Nat.ne_of_lt hlt)]; exact ⟨rfl, hov⟩
  | @logger j m ha _ hl =>
    rw [hl]
    by_cases hij : i = j
    · subst hij
      rw [upd_same]
      cases m with
      | setLevel w =>
        exfalso; apply hop
        cases ha with
        | setLevel hn => exact hn.symm
        | handle => rfl
      | resetLevel => exfalso; apply hop; cases ha with | handle => rfl
      | setLevelFromGroup g =>
        exfalso; apply hop
        cases ha with
        | resetLevel hn => exact hn.symm
        | handle => rfl
      | setSink k => exact ⟨rfl, hov⟩
      | resetSink => exact ⟨rfl, hov⟩
      | setSinkFromGroup g =>
        unfold Logger.call Logger.setSinkFromGroup
        simp only
        split <;> exact ⟨rfl, hov⟩
      | setGroup g => exact (setGroup_sticky _ _ _).1 hov
    · rw [upd_other _ _ hij]; exact ⟨rfl, hov⟩

/-- **C44**: likewise for the sink. -/
theorem C44_logger_sink_sticky {s s' : Sys} (h : AnyReach s) {i : Nat} (hi : s.alive i = true)
    (hov : (s.lgr i).sinkOv = true) {op : Op} (hop : ¬ aboutSinkOf s i op) {fuel : Nat} {v : Val}
    (hc : step fuel s op = .ret v s') : (s'.lgr i).sink = (s.lgr i).sink ∧ (s'.lgr i).sinkOv = true := by
  have hlt := (h.wf.live i hi).1
  cases step_effect h.wf hc with
  | level hg ho hs => exact ⟨(hs.lshape i).2.2.1, by rw [(hs.lshape i).2.2.2.1, hov]⟩
  | sink hg ho hs => rw [(hs.lshape i).2.2.2.2.2 hov]; exact ⟨rfl, hov⟩
  | parent hs => exact ⟨(hs.lshape i).2.2.2.2.2 hov, by rw [(hs.lshape i).2.2.2.1, hov]⟩
  | group _ hl => rw [hl]; exact ⟨rfl, hov⟩
  | none _ hl => rw [hl]; exact ⟨rfl, hov⟩
  | create _ hl => rw [hl, upd_other _ _ (Nat.ne_of_lt hlt)]; exact ⟨rfl, hov⟩
  | @logger j m ha _ hl =>
    rw [hl]
    by_cases hij : i = j
    · subst hij
      rw [upd_same]
      cases m with
      | setSink w =>
        exfalso; apply hop
        cases ha with
        | setSink hn => exact hn.symm
        | handle => rfl
      | resetSink => exfalso; apply hop; cases ha with | handle => rfl
      | setSinkFromGroup g =>
        exfalso; apply hop
        cases ha with
        | resetSink hn => exact hn.symm
        | handle => rfl
      | setLevel k => exact ⟨rfl, hov⟩
      | resetLevel => exact ⟨rfl, hov⟩
      | setLevelFromGroup g => exact ⟨rfl, hov⟩
      | setGroup g => exact (setGroup_sticky _ _ _).2 hov
    · rw [upd_other _ _ hij]; exact ⟨rfl, hov⟩

/-- **C44**: an overridden level of a group is changed by no call except `setLevelOfGroup` and `resetLevelOfGroup` on
this very group. -/
theorem C44_group_level_sticky {s s' : Sys} (h : AnyReach s) {x : Nat} (hx : x < s.ngroups)
    (hov : (s.grp x).levelOv = true) {op : Op}
    (hop : ∀ n, s.groups.find n = some x → op ≠ .resetLevelOfGroup n ∧ ∀ l, op ≠ .setLevelOfGroup n l) {fuel : Nat} {v : Val}
    (hc : step fuel s op = .ret v s') : (s'.grp x).level = (s.grp x).level ∧ (s'.grp x).levelOv = true := by
  cases step_effect h.wf hc with
  | @level n g l hg ho hs =>
    by_cases hxg : x = g
    · subst hxg
      rcases ho with ⟨w, _, ho⟩ | ⟨_, ho⟩
      · exact absurd ho ((hop n hg).2 w)
      · exact absurd ho (hop n hg).1
    · rcases hs.other x hxg with h1 | ⟨h1, _⟩
      · rw [h1]; exact ⟨rfl, hov⟩
      · exfalso
        cases h1 with
        | self => exact hxg rfl
        | child _ hf _ => unfold Sys.levelFixed at hf; rw [hov] at hf; cases hf
  | sink hg ho hs => exact ⟨(hs.shape x).2.2.1, by rw [(hs.shape x).2.2.2.1, hov]⟩
  | parent hs => exact ⟨(hs.shape x).2.2.2.2.1 hov, by rw [(hs.shape x).2.1, hov]⟩
  | group hg _ => rw [hg, upd_other _ _ (Nat.ne_of_lt hx)]; exact ⟨rfl, hov⟩
  | none hg _ => rw [hg]; exact ⟨rfl, hov⟩
  | create hg _ => rw [hg]; exact ⟨rfl, hov⟩
  | logger _ hg _ => rw [hg]; exact ⟨rfl, hov⟩

/-- **C44**: likewise for the sink. -/
theorem C44_group_sink_sticky {s s' : Sys} (h : AnyReach s) {x : Nat} (hx : x < s.ngroups)
    (hov : (s.grp x).sinkOv = true) {op : Op}
    (hop : ∀ n, s.groups.find n = some x → op ≠ .resetSinkOfGroup n ∧ ∀ l, op ≠ .setSinkOfGroup n l) {fuel : Nat} {v : Val}
    (hc : step fuel s op = .ret v s') : (s'.grp x).sink = (s.grp x).sink ∧ (s'.grp x).sinkOv = true := by
  cases step_effect h.wf hc with
  | @sink n g l hg ho hs =>
    by_cases hxg : x = g
    · subst hxg
      rcases ho with ⟨w, _, _, _, ho⟩ | ⟨_, ho⟩
      · exact absurd ho ((hop n hg).2 w)
      · exact absurd ho (hop n hg).1
    · rcases hs.other x hxg with h1 | ⟨h1, _⟩
      · rw [h1]; exact ⟨rfl, hov⟩
      · exfalso
        cases h1 with
        | self => exact hxg rfl
        | child _ hf _ => unfold Sys.sinkFixed at hf; rw [hov] at hf; cases hf
  | level hg ho hs => exact ⟨(hs.shape x).2.2.1, by rw [(hs.shape x).2.2.2.1, hov]⟩
  | parent hs => exact ⟨(hs.shape x).2.2.2.2.2 hov, by rw [(hs.shape x).2.2.1, hov]⟩
  | group hg _ => rw [hg, upd_other _ _ (Nat.ne_of_lt hx)]; exact ⟨rfl, hov⟩
  | none hg _ => rw [hg]; exact ⟨rfl, hov⟩
  | create hg _ => rw [hg]; exact ⟨rfl, hov⟩
  | logger _ hg _ => rw [hg]; exact ⟨rfl, hov⟩

/-- **C44**: setting a property of a logger marks it; resetting it gives it the current value of its group and removes
the mark (so that, by C34, it follows again); nothing else changes. -/
theorem C44_logger_set_reset {s : Sys} (h : AnyReach s) {i : Nat} (hi : s.alive i = true) (fuel : Nat) :
    let n := (s.lgr i).name
    (∀ l, step fuel s (.setLevelOfLogger n l) =
      .ret (.bool true) { s with lgr := upd s.lgr i { s.lgr i with level := l, levelOv := true } }) ∧
    (step fuel s (.resetLevelOfLogger n) = .ret (.bool true)
      { s with lgr := upd s.lgr i { s.lgr i with level := (s.grp (s.lgr i).group).level, levelOv := false } }) ∧
    (∀ kn k, s.sinks.find kn = some k → step fuel s (.setSinkOfLogger n kn) =
      .ret (.bool true) { s with lgr := upd s.lgr i { s.lgr i with sink := some k, sinkOv := true } }) ∧
    (∀ k, (s.grp (s.lgr i).group).sink = some k → step fuel s (.resetSinkOfLogger n) =
      .ret (.bool true) { s with lgr := upd s.lgr i { s.lgr i with sink := some k, sinkOv := false } }) := by
  have hl := (h.wf.live i hi).2
  refine ⟨fun l => ?_, ?_, fun kn k hk => ?_, fun k hk => ?_⟩
  · simp only [step, setLevelOfLogger, onLogger, hl, hi, if_true]; rfl
  · simp only [step, resetLevelOfLogger, onLogger, hl, hi, if_true, Logger.setLevelFromGroup, ne_eq, not_true_eq_false,
      decide_false]; rfl
  · simp only [step, setSinkOfLogger, getSink, hk, onLogger, hl, hi, if_true]; rfl
  · simp only [step, resetSinkOfLogger, onLogger, hl, hi, if_true, Logger.setSinkFromGroup, hk, ne_eq, not_true_eq_false,
      decide_false]; rfl

/-- logger `y` (1) has its own level and sink; group `c` (3) its own level -/
example : demoL.alive 1 = true ∧ (demoL.lgr 1).levelOv = true ∧ (demoL.lgr 1).sinkOv = true ∧ (demoL.grp 3).levelOv = true ∧
    let s' := after [.setLevelOfGroup ['r'] .trace, .setSinkOfGroup ['a'] ['s'], .setParentOfGroup ['a'] ['q'],
      .setGroupOfLogger ['y'] ['r'], .resetLevelOfGroup ['a']] demoL
    (s'.lgr 1).level = .error ∧ (s'.lgr 1).sink = some 2 ∧ (s'.grp 3).level = .debug ∧
    ((after [.resetLevelOfLogger ['y']] s').lgr 1).level = .trace := by decide +kernel

/-! ## C45 -/

/-- **C45**: `makeGroup` succeeds iff the named parent and the named sink exist and a level is given or there is a
parent; the group it creates has the requested properties, marked as overridden iff it has a parent, the rest is
inherited; it is registered under its name (and is the fallback group if there was none).  Otherwise the call throws and
nothing changes. -/
theorem C45_makeGroup {s : Sys} (h : AnyReach s) (name : Text) (parent sink : Option Text) (level : Option Level) (fuel : Nat) :
    ((∀ pn, parent = some pn → ∃ p, s.groups.find pn = some p) → (∀ kn, sink = some kn → ∃ k, s.sinks.find kn = some k) →
      (level.isSome ∨ parent.isSome) →
      ∃ s' gr, step fuel s (.makeGroup name parent sink level) = .ret (.group s.ngroups) s' ∧
        s' = { s with ngroups := s.ngroups + 1, grp := upd s.grp s.ngroups gr, groups := s'.groups } ∧
        s'.groups.find name = some s.ngroups ∧
        (∀ n, n ≠ name → n ≠ star → s'.groups.find n = s.groups.find n) ∧
        (s'.groups.find star = if name = star then some s.ngroups else (s.groups.find star).or (some s.ngroups)) ∧
        gr.name = name ∧ gr.parent = parent.bind (fun pn => s.groups.find pn) ∧
        (∀ l, level = some l → gr.level = l) ∧ gr.levelOv = (parent.isSome && level.isSome) ∧
        (∀ kn, sink = some kn → gr.sink = s.sinks.find kn) ∧ gr.sinkOv = (parent.isSome && sink.isSome) ∧
        (∀ p, gr.parent = some p → (level = none → gr.level = (s.grp p).level) ∧ (sink = none → gr.sink = (s.grp p).sink)) ∧
        (parent = none → sink = none → gr.sink = none)) ∧
    (¬ ((∀ pn, parent = some pn → ∃ p, s.groups.find pn = some p) ∧ (∀ kn, sink = some kn → ∃ k, s.sinks.find kn = some k) ∧
      (level.isSome ∨ parent.isSome)) → step fuel s (.makeGroup name parent sink level) = .throw s) := by
  have hres : ∀ (t : Table) (o : Option Text), (∀ n, o = some n → ∃ p, t.find n = some p) ↔ ∃ p, resolve t o = some p := by
    intro t o
    cases o with
    | none => simp [resolve]
    | some n =>
      simp only [resolve, Option.some.injEq, forall_eq', Option.map_eq_some_iff]
      exact ⟨fun ⟨p, hp⟩ => ⟨some p, p, hp, rfl⟩, fun ⟨_, a, ha, _⟩ => ⟨a, ha⟩⟩
  have hresv : ∀ (t : Table) (o : Option Text) p, resolve t o = some p → p = o.bind (fun n => t.find n) ∧ p.isSome = o.isSome := by
    intro t o p hp
    cases o with
    | none => simp only [resolve, Option.some.injEq] at hp; subst hp; simp
    | some n =>
      simp only [resolve, Option.map_eq_some_iff] at hp
      obtain ⟨a, ha, rfl⟩ := hp
      simp [ha]
  constructor
  · intro hp hk hl
    obtain ⟨p, hp⟩ := (hres _ _).1 hp
    obtain ⟨k, hk⟩ := (hres _ _).1 hk
    have hl' : (parent.isSome || level.isSome) = true := by
      rcases hl with h | h <;> simp [h]
    obtain ⟨hp1, hp2⟩ := hresv _ _ _ hp
    obtain ⟨hk1, hk2⟩ := hresv _ _ _ hk
    refine ⟨{ s with
      ngroups := s.ngroups + 1, grp := upd s.grp s.ngroups (newGroup s name p k level),
      groups := (if (s.groups.find star).isNone then s.groups.put star s.ngroups else s.groups).put name s.ngroups },
      newGroup s name p k level, ?_, rfl, ?_, ?_, ?_, rfl, hp1, ?_, ?_, ?_, ?_, ?_, ?_⟩
    · simp only [step, makeGroup_eq h.wf.gLt, hp, hk, hl']; rfl
    · exact Table.find_put_self _ _ _
    · intro n h1 h2
      simp only
      rw [Table.find_put_ne _ _ h1]
      split
      · exact Table.find_put_ne _ _ h2
      · rfl
    · simp only
      rw [Table.find_put]
      by_cases hs : name = star
      · rw [if_pos hs, if_pos hs.symm]
      · rw [if_neg hs, if_neg (fun he => hs he.symm)]
        cases hf : s.groups.find star with
        | none => simp [Table.find_put_self]
        | some f => simp [hf]
    · rintro l rfl; rfl
    · simp only [newGroup, hp2]
    · rintro kn rfl
      simp only [Option.bind_some] at hk1
      have hk3 : k.isSome = true := hk2
      show (if k.isSome then k else _) = _
      rw [if_pos hk3, hk1]
    · simp only [newGroup, hp2, hk2]
    · intro q hq
      have hq : p = some q := hq
      subst hq
      refine ⟨?_, ?_⟩
      · rintro rfl; rfl
      · rintro rfl
        have : k = none := by simpa using hk1
        subst this
        rfl
    · rintro rfl rfl
      have h1 : p = none := by simpa using hp1
      have h2 : k = none := by simpa using hk1
      subst h1; subst h2; rfl
  · intro hn
    simp only [step, makeGroup_eq h.wf.gLt]
    split
    · rename_i p k h1 h2 h3
      exfalso
      apply hn
      refine ⟨(hres _ _).2 ⟨_, h1⟩, (hres _ _).2 ⟨_, h2⟩, ?_⟩
      simp only [Bool.or_eq_true] at h3
      exact h3.symm
    · rfl

example : let s' := after [.makeGroup ['n'] (some ['a']) (some ['t']) none] demo
    s'.grp 5 = ⟨['n'], some 1, some 2, true, .info, false⟩ ∧
    (match step 20 demo (.makeGroup ['n'] none (some ['t']) none) with | .throw _ => true | _ => false) = true := by
  decide +kernel

/-! ## C46 -/

/-- Every group that is created without parent names its sink. -/
def rootsNameSink (_ : Sys) : Op → Prop
  | .makeGroup _ p k _ => p.isSome ∨ k.isSome
  | _ => True

/-- all groups and all loggers have a sink -/
def AllHaveSink (s : Sys) : Prop :=
  (∀ x, x < s.ngroups → (s.grp x).sink.isSome = true) ∧ ∀ i, i < s.nloggers → (s.lgr i).sink.isSome = true

def allowSink : Allow := ⟨fun _ _ => True, fun p k => p.isSome ∨ k.isSome, True, True⟩

theorem call_sink (l : Logger) (h : Nat → Group) (m : Method) (hl : l.sink.isSome = true)
    (hg : (h l.group).sink.isSome = true) : (l.call h m).sink.isSome = true := by
  cases m with
  | setLevel v => exact hl
  | resetLevel => exact hl
  | setLevelFromGroup g => exact hl
  | setSink k => rfl
  | resetSink => exact hg
  | setSinkFromGroup g =>
    unfold Logger.call Logger.setSinkFromGroup
    simp only
    split
    · rfl
    · exact hl
  | setGroup g =>
    unfold Logger.call Logger.setGroup Logger.setSinkFromGroup Logger.setLevelFromGroup
    simp only
    cases (h g).sink <;> simp only <;> (repeat' split) <;> first | exact hl | rfl

theorem followSink_isSome {a b : Option Nat} (h : a.isSome = true) : (followSink a b).isSome = true := by
  unfold followSink
  split
  · assumption
  · exact h

theorem trans_sink {s s' : Sys} (hw : WF s) (hs : AllHaveSink s) (ht : Trans allowSink s s') : AllHaveSink s' := by
  obtain ⟨hg, hl⟩ := hs
  cases ht with
  | refl => exact ⟨hg, hl⟩
  | configured => exact ⟨hg, hl⟩
  | erase k i hk hd => exact ⟨hg, hl⟩
  | sink name => exact ⟨hg, hl⟩
  | fallback name g _ _ => exact ⟨hg, hl⟩
  | drop i => exact ⟨hg, hl⟩
  | group name parent sink level p k hp hk _ hA =>
    refine ⟨?_, hl⟩
    intro x hx
    simp only at hx ⊢
    by_cases hxn : x = s.ngroups
    · subst hxn
      rw [upd_same]
      unfold newGroup
      simp only
      split
      · assumption
      · rename_i hns
        rcases hA with hA | hA
        · cases p with
          | none => cases hA
          | some q =>
            obtain ⟨nm, _, hq⟩ := resolve_registered hp rfl
            exact hg q (hw.gLt nm q hq)
        · exact absurd hA hns
    · rw [upd_other _ _ hxn]; exact hg x (by omega)
  | create name g sink level ws hd hgr =>
    refine ⟨hg, ?_⟩
    intro i hi
    unfold created at hi ⊢
    simp only at hi ⊢
    by_cases hin : i = s.nloggers
    · subst hin
      rw [upd_same, mkLogger_eq]
      unfold requested
      have := hg g (hw.regLt hgr)
      simp only [Option.isSome_or, this, Bool.or_true]
    · rw [upd_other _ _ hin]; exact hl i (by omega)
  | logger j m hj _ _ =>
    refine ⟨hg, ?_⟩
    intro i hi
    simp only
    by_cases hij : i = j
    · subst hij
      rw [upd_same]
      exact call_sink _ _ _ (hl i hi) (hg _ (hw.lgLt i hi))
    · rw [upd_other _ _ hij]; exact hl i hi
  | level _ g l _ h =>
    have h1 : s'.ngroups = s.ngroups := by rw [h.rest]
    have h2 : s'.nloggers = s.nloggers := by rw [h.rest]
    exact ⟨fun x hx => by rw [(h.shape x).2.2.1]; exact hg x (by omega),
      fun i hi => by rw [(h.lshape i).2.2.1]; exact hl i (by omega)⟩
  | sinkOf _ g k hgr hk h =>
    have h1 : s'.ngroups = s.ngroups := by rw [h.rest]
    have h2 : s'.nloggers = s.nloggers := by rw [h.rest]
    have hnew : (newSink s.grp g k).isSome = true := by
      unfold newSink
      cases k with
      | some k => rfl
      | none =>
        cases hp : (s.grp g).parent with
        | none => exact hg g (hw.regLt hgr)
        | some p => exact hg p (hw.pLt g p (hw.regLt hgr) hp)
    refine ⟨fun x hx => ?_, fun i hi => ?_⟩
    · by_cases hxg : x = g
      · subst hxg; rw [h.self]; exact hnew
      · rcases h.other x hxg with h3 | ⟨_, h3⟩
        · rw [h3]; exact hg x (by omega)
        · rw [h3]; exact hnew
    · by_cases hc : s.alive i = true ∧ i ∈ s.loggers.map (·.2) ∧ s.registered (s.lgr i).group ∧
        (s.lgr i).sinkOv = false ∧ InheritsFrom s.parent s.sinkFixed g (s.lgr i).group
      · obtain ⟨a, b, c, d, e⟩ := hc
        rw [h.logger i a b c d e]; exact followSink_isSome (hl i (by omega))
      · rw [h.logger_kept i hc]; exact hl i (by omega)
  | parentOf _ g p hgr hp _ _ h =>
    have h1 : s'.ngroups = s.ngroups := by rw [h.rest]
    have h2 : s'.nloggers = s.nloggers := by rw [h.rest]
    refine ⟨?_, fun i hi => ?_⟩
    · rw [h1]
      exact h.sink_all (fun o => o.isSome = true) hg (fun x p hx hxp => hw.pLt x p hx hxp) (hw.regLt hgr)
        (fun p' hp' => hw.regLt (hp p' hp'))
    · by_cases hc : s.alive i = true ∧ i ∈ s.loggers.map (·.2) ∧ s.registered (s.lgr i).group ∧
        InheritsFrom (relink s.grp g p) s.bothFixed g (s.lgr i).group
      · obtain ⟨a, b, c, d⟩ := hc
        rw [h.logger i a b c d, setGroup_own]
        simp only
        split
        · exact hl i (by omega)
        · exact followSink_isSome (hl i (by omega))
      · rw [h.logger_kept i hc]; exact hl i (by omega)

/-- **C46**, part: as long as every group created without parent names a sink, every group and every logger has a sink,
whatever is called.  Missing: groups created with a level but neither parent nor sink (refuted below). -/
theorem C46_sinks_partial {s : Sys} (h : ReachBy rootsNameSink s) : AllHaveSink s := by
  have hA : ∀ {s op}, rootsNameSink s op → ∀ n p k l p' k', op = .makeGroup n p k l → resolve s.groups p = some p' →
      resolve s.sinks k = some k' → allowSink.group p' k' := by
    rintro s op hok n p k l p' k' rfl hp hk
    show p'.isSome = true ∨ k'.isSome = true
    rw [resolve_isSome hp, resolve_isSome hk]
    exact hok
  induction h with
  | init debug ord ho =>
    constructor
    · intro x hx; simp [new] at hx
    · intro x hx; simp [new] at hx
  | call hr hok hc ih =>
    exact trans_sink hr.wf ih (step_trans hr.wf (fun _ _ _ _ _ _ _ => trivial) (hA hok) (fun _ _ => trivial) (.inl hc))
  | failed hr hok hc ih =>
    exact trans_sink hr.wf ih
      (step_trans (v := .unit) hr.wf (fun _ _ _ _ _ _ _ => trivial) (hA hok) (fun _ _ => trivial) (.inr hc))
  | configuring _ ih => exact ih

/-- a system with one group that has a level but no sink -/
def sinkless : Sys := after [.makeGroup ['g'] none none (some .trace)] { new true id with configured := true }

theorem sinkless_reach : Reach sinkless := after_reach (.configuring (.init true id fun _ => .refl _))

/-- **C46 is false**: `makeGroup("g", {}, {}, trace)` is accepted, and a logger of this group has no sink; asking for a
logger of an unknown group then dereferences the null pointer (the warning). -/
theorem C46_refuted : ∃ s, Reach s ∧ (step 20 s (.getLogger ['x'] ['g'] none none)).val = some (.logger 0) ∧
    (let s' := after [.getLogger ['x'] ['g'] none none] s; s'.alive 0 = true ∧ (s'.lgr 0).sink = none) ∧
    step 20 s (.getLogger ['x'] ['?'] none none) = .ub := by
  refine ⟨sinkless, sinkless_reach, by decide +kernel, by decide +kernel, ?_⟩
  have h1 : sinkless.configured = true := by decide +kernel
  have h2 : sinkless.liveLogger ['x'] = none := by decide +kernel
  have h3 : sinkless.groups.find ['?'] = none := by decide +kernel
  have h4 : sinkless.groups.find star = some 0 := by decide +kernel
  have h5 : (Logger.new sinkless.grp ['S', 'o', 'r', 'a', 'l', 'o', 'g'] 0).sink = none := by decide +kernel
  have h6 : Level.warn ≤ (Logger.new sinkless.grp ['S', 'o', 'r', 'a', 'l', 'o', 'g'] 0).level := by decide +kernel
  have h7 : (['?'] : Text) ≠ star := by decide
  simp only [step, getLogger_unfold, h1, h2, h7, getGroup, h3, getFallbackGroup, h4, warnThrough, Bool.not_true,
    Bool.false_eq_true, if_false, false_and, Option.bind_some, h5, if_pos h6, Option.map_none, Res.map]

example : ReachBy rootsNameSink demoL ∧ demoL.ngroups = 5 ∧ demoL.nloggers = 3 := by
  have h0 : ReachBy rootsNameSink { new true id with configured := true } := .configuring (.init true id fun _ => .refl _)
  refine ⟨after_reachBy (after_reachBy h0 ?_) ?_, by decide +kernel, by decide +kernel⟩
  · intro s op hm; simp only [demoOps, List.mem_cons, List.not_mem_nil, or_false] at hm
    rcases hm with rfl | rfl | rfl | rfl | rfl | rfl | rfl <;> simp [rootsNameSink]
  · intro s op hm; simp only [demoLoggerOps, List.mem_cons, List.not_mem_nil, or_false] at hm
    rcases hm with rfl | rfl | rfl <;> simp [rootsNameSink]

/-! ## C49, whatever the configurator -/

/-- **C49** (every configurator): what `configure` itself adds to the result.  A configurator that throws, or leaves no group, makes it an
error; otherwise errors are those the configurator reported, and there is a warning iff the configurator reported one or some group
(other than the entry `*`) ended up with the sink of name `*`. -/
theorem C49_configure_flags {s s' : Sys} {fuel : Nat} {sc : Script} {res r : ConfResult} (hc : configure fuel sc res s = .ret r s') :
    (r.error = true ↔ sc.throws = true ∨ s'.groups = [] ∨ res.error = true) ∧
    (r.warning = true ↔ sc.throws = false ∧ (res.warning = true ∨
      ∃ e ∈ s'.groups, e.1 ≠ star ∧ ∃ k, (s'.grp e.2).sink = some k ∧ s'.sinkName k = star)) := by
  unfold configure at hc
  split at hc
  · cases hc
  · split at hc
    · cases hc
    · rename_i s1 h1
      split at hc
      · rename_i ht; cases hc; simp [ht]
      · rename_i ht
        have ht : sc.throws = false := by simpa using ht
        split at hc
        · rename_i he
          cases hc
          have he : s'.groups = [] := List.isEmpty_iff.1 he
          simp [ht, he]
        · rename_i he
          have he : s1.groups ≠ [] := fun h => he (by rw [h]; rfl)
          dsimp only at hc
          split at hc
          · cases hc
          · rename_i hn
            cases hc
            refine ⟨by simp [ht, he], ?_⟩
            simp only [ht, Bool.or_eq_true, true_and]
            refine or_congr Iff.rfl ?_
            rw [List.any_eq_true]
            constructor
            · rintro ⟨k, hk, h⟩
              rw [List.mem_map] at hk
              obtain ⟨e, he, rfl⟩ := hk
              rw [List.mem_filter] at he
              cases hs : (s'.grp e.2).sink with
              | none => rw [hs] at h; cases h
              | some k => rw [hs] at h; exact ⟨e, he.1, by simpa using he.2, k, hs, by simpa using h⟩
            · rintro ⟨e, he, hne, k, hs, hk⟩
              refine ⟨some k, List.mem_map.2 ⟨e, List.mem_filter.2 ⟨he, by simpa using hne⟩, hs⟩, by simpa using hk⟩

/-- a configurator that throws after having made a sink, one that makes no group, one whose group has an unknown sink -/
example : (∃ s, configure 9 ⟨[.makeSink ['a']], true⟩ ⟨false, true⟩ (new true id) = .ret ⟨true, false⟩ s) ∧
    (∃ s, configure 9 ⟨[.makeSink ['a']], false⟩ ⟨false, true⟩ (new true id) = .ret ⟨true, true⟩ s) ∧
    (∃ s, configure 9 ⟨[.makeSink ['a'], .makeGroup ['g'] none (some ['*']) (some .info)], false⟩ ⟨false, false⟩ (new true id) =
      .ret ⟨false, true⟩ s) := ⟨⟨_, rfl⟩, ⟨_, rfl⟩, ⟨_, rfl⟩⟩

/-! ## C60 -/

def console : Text := ['c', 'o', 'n', 's', 'o', 'l', 'e']

/-- **C60**: `configure` with the fallback configurator reports no error (and its standing
warning) and leaves the one group `*`
with the console sink and the configured level. -/
theorem C60_configure (debug : Bool) (ord : List Nat → List Nat) (level : Level) (fuel : Nat) :
    ∃ s, configure fuel (fallbackScript level) fallbackResult (new debug ord) = .ret ⟨false, true⟩ s ∧
      s.configured = true ∧ getFallbackGroup s = some 0 ∧ s.ngroups = 1 ∧ (∀ n, n ≠ star → s.groups.find n = none) ∧
      (s.grp 0).level = level ∧ ∃ k, (s.grp 0).sink = some k ∧ s.sinks.find console = some k ∧ s.sinkName k = console := by
  refine ⟨_, rfl, rfl, rfl, rfl, ?_, rfl, 1, rfl, rfl, rfl⟩
  intro n hn
  show ((if (Table.find [] star).isNone then Table.put [] star 0 else []).put star 0).find n = none
  rw [Table.find_put_ne _ _ hn, if_pos (by rfl), Table.find_put_ne _ _ hn]
  rfl

/-- the calls a program makes that only asks for loggers (without own sink or level) and drops them -/
def onlyLoggers : Op → Prop
  | .getLogger _ g k l => g ≠ star ∧ k = none ∧ l = none
  | .drop _ => True
  | _ => False

/-- **C60**: after that, in every history of requests for loggers and drops, every request for a logger of whatever name
and group (other than `*`) succeeds, and the logger has the configured level and the console sink. -/
theorem C60_loggers (debug : Bool) (ord : List Nat → List Nat) (ho : ∀ l, (ord l).Perm l) (level : Level) {fuel : Nat} {s0 : Sys}
    (hconf : configure fuel (fallbackScript level) fallbackResult (new debug ord) = .ret ⟨false, true⟩ s0)
    {ops : List Op} (hops : ∀ op ∈ ops, onlyLoggers op) {s : Sys} (hrun : runOps fuel ops s0 = some s)
    (n g : Text) (hg : g ≠ star) :
    ∃ i s', step fuel s (.getLogger n g none none) = .ret (.logger i) s' ∧ s'.alive i = true ∧ (s'.lgr i).name = n ∧
      (s'.lgr i).level = level ∧ (s'.lgr i).sink = s.sinks.find console ∧ (s.sinks.find console).isSome = true := by
  obtain ⟨s0', h0, hc, hf, hng, hnone, hlev, k, hk, hks, hkn⟩ := C60_configure debug ord level fuel
  rw [h0] at hconf
  cases hconf
  have hr0 : Reach s0 := configure_reach (.init debug ord ho) (.inl ⟨_, h0⟩)
  have hnl : s0.nloggers = 0 := by cases h0; rfl
  -- the invariant
  let P : Sys → Prop := fun s => Reach s ∧ s.configured = true ∧ s.groups = s0.groups ∧ s.grp = s0.grp ∧ s.sinks = s0.sinks ∧
    ∀ i, i < s.nloggers → (s.lgr i).level = level ∧ (s.lgr i).sink = some k
  have hget : ∀ s n g, P s → g ≠ star → ∃ i s', step fuel s (.getLogger n g none none) = .ret (.logger i) s' ∧ P s' ∧
      s'.alive i = true ∧ (s'.lgr i).name = n ∧ i < s'.nloggers := by
    intro s n g ⟨hr, hc, h1, h2, h3, h4⟩ hg
    by_cases hlive : ∃ i, s.alive i = true ∧ (s.lgr i).name = n
    · obtain ⟨i, hi, rfl⟩ := hlive
      exact ⟨i, s, C40_same_logger hr hc hi g none none fuel, ⟨hr, hc, h1, h2, h3, h4⟩, hi, rfl, (hr.wf.live i hi).1⟩
    · have hn : ∀ i, s.alive i = true → (s.lgr i).name ≠ n := fun i hi he => hlive ⟨i, hi, he⟩
      have hst := C41_fallback hr hc hn (group := g) (f := 0) (k := k) (by rw [h1]; exact hnone g hg)
        (by unfold getFallbackGroup at hf ⊢; rw [h1]; exact hf) (by rw [h2]; exact hk) none none fuel
      refine ⟨s.nloggers, _, hst, ⟨.call hr trivial hst, hc, h1, h2, h3, ?_⟩, ?_, ?_, ?_⟩
      · intro i hi
        unfold withLogger requested at hi ⊢
        simp only at hi ⊢
        by_cases hin : i = s.nloggers
        · subst hin
          rw [upd_same]
          simp only [Option.getD_none, h2, hlev, Option.bind_none, Option.none_or, hk, and_self]
        · rw [upd_other _ _ hin]; exact h4 i (by omega)
      · unfold withLogger; simp
      · unfold withLogger requested; simp
      · unfold withLogger; simp
  have hP : ∀ ops s1 s2, (∀ op ∈ ops, onlyLoggers op) → P s1 → runOps fuel ops s1 = some s2 → P s2 := by
    intro ops
    induction ops with
    | nil => intro s1 s2 _ h hr; cases hr; exact h
    | cons op ops ih =>
      intro s1 s2 ho h hr
      have hop := ho op List.mem_cons_self
      have ho' := fun op hm => ho op (List.mem_cons_of_mem _ hm)
      unfold runOps at hr
      cases op with
      | getLogger n g k l =>
        obtain ⟨hg, rfl, rfl⟩ := hop
        obtain ⟨i, s', h1, h2, _⟩ := hget s1 n g h hg
        rw [h1] at hr
        exact ih _ _ ho' h2 hr
      | drop i =>
        have hst : step fuel s1 (.drop i) = .ret .unit { s1 with alive := upd s1.alive i false } := rfl
        rw [hst] at hr
        exact ih _ _ ho' ⟨.call h.1 trivial hst, h.2⟩ hr
      | makeSink n => exact hop.elim
      | makeGroup n p k l => exact hop.elim
      | setFallbackGroup n => exact hop.elim
      | setParentOfGroup g p => exact hop.elim
      | unsetParentOfGroup g => exact hop.elim
      | setSinkOfGroup g k => exact hop.elim
      | resetSinkOfGroup g => exact hop.elim
      | setLevelOfGroup g l => exact hop.elim
      | resetLevelOfGroup g => exact hop.elim
      | setGroupOfLogger l g => exact hop.elim
      | setSinkOfLogger l k => exact hop.elim
      | resetSinkOfLogger l => exact hop.elim
      | setLevelOfLogger l v => exact hop.elim
      | resetLevelOfLogger l => exact hop.elim
      | onHandle i m => exact hop.elim
  have hPs := hP ops s0 s hops ⟨hr0, hc, rfl, rfl, rfl, fun i hi => by omega⟩ hrun
  obtain ⟨i, s', h1, h2, h3, h4, h5⟩ := hget s n g hPs hg
  refine ⟨i, s', h1, h3, h4, (h2.2.2.2.2.2 i h5).1, ?_, ?_⟩
  · rw [(h2.2.2.2.2.2 i h5).2, hPs.2.2.2.2.1]; exact hks.symm
  · rw [hPs.2.2.2.2.1, hks]; rfl

example : (match configure 20 (fallbackScript .info) fallbackResult (new true id) with
    | .ret _ s => let s' := after [.getLogger ['x'] ['y'] none none, .drop 0, .getLogger ['z'] ['w'] none none] s
                  decide ((s'.lgr 1).level = .info ∧ (s'.lgr 1).sink = some 1 ∧ s'.warned.length = 2)
    | _ => false) = true := by decide +kernel

end System
end Soralog
