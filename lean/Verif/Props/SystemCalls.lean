import Verif.Props.SystemTree
/-!
# C40–C46, C60: getLogger, configuration, refused calls, overrides, makeGroup
-/
namespace Soralog
namespace System

open Hierarchy

/-! ## C40 -/

/-- **C40**: while a logger named `n` is alive, `getLogger(n, …)` returns it and changes nothing, whatever group, sink
and level are asked for. -/
theorem C40_same_logger {s : Sys} (h : AnyReach s) (hc : s.configured = true) {i : Nat} (hi : s.alive i = true)
    (group : Text) (sink : Option Text) (level : Option Level) (fuel : Nat) :
    step fuel s (.getLogger (s.lgr i).name group sink level) = .ret (.logger i) s := by
  have hl := (h.wf.live i hi).2
  simp only [step, getLogger, hc, hl, hi]
  rfl

/-- **C40**: no two live loggers have the same name. -/
theorem C40_unique {s : Sys} (h : AnyReach s) {i j : Nat} (hi : s.alive i = true) (hj : s.alive j = true)
    (hn : (s.lgr i).name = (s.lgr j).name) : i = j := by
  have h1 := (h.wf.live i hi).2
  have h2 := (h.wf.live j hj).2
  rw [hn, h2] at h1
  cases h1; rfl

/-- A logger as requested: in group `g`, with the sink named `sink` if there is one of that name, else the group's;
with the level asked for, else the group's; marked accordingly. -/
def requested (s : Sys) (name : Text) (g : Nat) (sink : Option Text) (level : Option Level) : Logger :=
  let own := sink.bind fun kn => s.sinks.find kn
  { name, group := g, sink := own.or (s.grp g).sink, sinkOv := own.isSome,
    level := level.getD (s.grp g).level, levelOv := level.isSome }

theorem mkLogger_eq (s : Sys) (name : Text) (g : Nat) (sink : Option Text) (level : Option Level) :
    mkLogger s name g sink level = requested s name g sink level := by
  unfold mkLogger requested Logger.new Logger.setSinkFromGroup Logger.setLevelFromGroup Logger.setSink Logger.setLevel getSink
  cases hs : (s.grp g).sink <;> cases level <;> cases sink with
  | none => simp
  | some kn => cases hk : s.sinks.find kn <;> simp [hk]

/-- the state with a new logger and, perhaps, new warnings; nothing else changed -/
def withLogger (s : Sys) (l : Logger) (ws : List Warning) : Sys :=
  { s with nloggers := s.nloggers + 1, lgr := upd s.lgr s.nloggers l, alive := upd s.alive s.nloggers true,
           loggers := s.loggers.put l.name s.nloggers, warned := s.warned ++ ws }

theorem created_eq (s : Sys) (name : Text) (g : Nat) (sink : Option Text) (level : Option Level) (ws : List Warning) :
    created s name g sink level (s.warned ++ ws) = withLogger s (requested s name g sink level) ws := by
  unfold created withLogger
  rw [mkLogger_eq]
  rfl

theorem noLive {s : Sys} (h : AnyReach s) {n : Text} (hn : ∀ i, s.alive i = true → (s.lgr i).name ≠ n) :
    s.liveLogger n = none := by
  cases hl : s.liveLogger n with
  | none => rfl
  | some i =>
    obtain ⟨h1, h2⟩ := liveLogger_eq.1 hl
    exact absurd (h.wf.lLt n i h1).2 (hn i h2)

theorem getLogger_unfold (name group : Text) (sink : Option Text) (level : Option Level) (s : Sys) :
    getLogger name group sink level s =
    if !s.configured then .throw s
    else match s.liveLogger name with
    | some i => .ret i s
    | none =>
      if group = star ∧ s.debug = true then .throw s
      else
        match (if group = star then
            (getFallbackGroup s).bind fun f => warnThrough f (fun k => .deprecated k) s
          else some s) with
        | none => .ub
        | some s =>
          match (match getGroup group s with
            | some g => some (g, s)
            | none =>
              (getFallbackGroup s).bind fun f =>
                (warnThrough f (fun k => .unknownGroup k group name (s.grp f).name) s).map fun s => (f, s)) with
          | none => .ub
          | some (g, s) => .ret s.nloggers (created s name g sink level s.warned) := rfl

/-- **C40**: if no logger named `n` is alive (never created, or the last reference dropped), `getLogger` creates a new
one in the requested group with the requested properties; nothing else changes. -/
theorem C40_new_logger {s : Sys} (h : AnyReach s) (hc : s.configured = true) {n group : Text} {g : Nat}
    (hn : ∀ i, s.alive i = true → (s.lgr i).name ≠ n) (hg : s.groups.find group = some g) (hstar : group ≠ star)
    (sink : Option Text) (level : Option Level) (fuel : Nat) :
    step fuel s (.getLogger n group sink level) =
      .ret (.logger s.nloggers) (withLogger s (requested s n g sink level) []) := by
  have hl := noLive h hn
  have e : getLogger n group sink level s = .ret s.nloggers (created s n g sink level s.warned) := by
    rw [getLogger_unfold]
    simp only [hc, hl, hstar, getGroup, hg, Bool.not_true, Bool.false_eq_true, if_false, false_and]
  simp only [step, e, Res.map]
  have := created_eq s n g sink level []
  rw [List.append_nil] at this
  rw [this]

/-- in the demo system: logger `x` again, with other wishes; and a new one after it was dropped -/
example : (step 20 demoL (.getLogger ['x'] ['q'] (some ['t']) (some .error))).val = some (.logger 0) ∧
    demoL.alive 0 = true ∧ (demoL.lgr 0).name = ['x'] ∧ demoL.configured = true := by decide +kernel
example : let s := after [.drop 0] demoL
    let s' := after [.getLogger ['x'] ['q'] none (some .error)] s
    s.alive 0 = false ∧ s.nloggers = 3 ∧ (∀ i ∈ [0, 1, 2], s.alive i = true → (s.lgr i).name ≠ ['x']) ∧
    (step 20 s (.getLogger ['x'] ['q'] none (some .error))).val = some (.logger 3) ∧
    (s'.lgr 3) = ⟨['x'], 4, some 2, false, .error, true⟩ := by decide +kernel

/-! ## C41 -/

/-- **C41**: an unknown group on a configured system with a fallback group: the logger is put into the fallback group,
and one warning, naming the group, the logger and the fallback group, goes through the sink of the fallback group iff
its level admits warnings.  (The hypothesis on the sink: C46.) -/
theorem C41_fallback {s : Sys} (h : AnyReach s) (hc : s.configured = true) {n group : Text} {f k : Nat}
    (hn : ∀ i, s.alive i = true → (s.lgr i).name ≠ n) (hg : s.groups.find group = none)
    (hf : getFallbackGroup s = some f) (hk : (s.grp f).sink = some k)
    (sink : Option Text) (level : Option Level) (fuel : Nat) :
    step fuel s (.getLogger n group sink level) =
      .ret (.logger s.nloggers) (withLogger s (requested s n f sink level)
        (if Level.warn ≤ (s.grp f).level then [.unknownGroup k group n (s.grp f).name] else [])) := by
  have hl := noLive h hn
  have hstar : group ≠ star := by
    rintro rfl
    unfold getFallbackGroup at hf
    rw [hf] at hg; cases hg
  unfold getFallbackGroup at hf
  have hw : warnThrough f (fun k => .unknownGroup k group n (s.grp f).name) s =
      some { s with warned := s.warned ++
        (if Level.warn ≤ (s.grp f).level then [.unknownGroup k group n (s.grp f).name] else []) } := by
    unfold warnThrough
    have h1 : (Logger.new s.grp ['S', 'o', 'r', 'a', 'l', 'o', 'g'] f).level = (s.grp f).level := rfl
    have h2 : (Logger.new s.grp ['S', 'o', 'r', 'a', 'l', 'o', 'g'] f).sink = some k := by
      unfold Logger.new Logger.setSinkFromGroup Logger.setLevelFromGroup
      rw [hk]
    simp only [h1, h2]
    split
    · rfl
    · simp
  have e : getLogger n group sink level s = .ret s.nloggers (created s n f sink level (s.warned ++
        (if Level.warn ≤ (s.grp f).level then [.unknownGroup k group n (s.grp f).name] else []))) := by
    rw [getLogger_unfold]
    simp only [hc, hl, hstar, getGroup, hg, getFallbackGroup, hf, Bool.not_true, Bool.false_eq_true, if_false, false_and,
      Option.bind_some, hw, Option.map_some]
    simp only [created, hc]
    rfl
  simp only [step, e, Res.map]
  rw [created_eq]

/-- **C41**: an unknown sink name is ignored. -/
theorem C41_unknown_sink {s : Sys} {kn : Text} (hk : s.sinks.find kn = none) (n group : Text) (level : Option Level)
    (fuel : Nat) : step fuel s (.getLogger n group (some kn) level) = step fuel s (.getLogger n group none level) := by
  have h1 : ∀ (s1 : Sys) (g : Nat) (ws : List Warning), s1.sinks = s.sinks →
      created s1 n g (some kn) level ws = created s1 n g none level ws := by
    intro s1 g ws hs
    unfold created mkLogger getSink
    simp only [hs, hk]
  have hwt : ∀ {f w} {s1 s2 : Sys}, s1.sinks = s.sinks → warnThrough f w s1 = some s2 → s2.sinks = s.sinks := by
    intro f w s1 s2 hs hw
    obtain ⟨ws, rfl, _⟩ := warnThrough_spec hw
    exact hs
  simp only [step, getLogger_unfold]
  congr 1
  split
  · rfl
  · split
    · rfl
    · split
      · rfl
      · generalize hq : (if group = star then (getFallbackGroup s).bind fun f => warnThrough f (fun k => .deprecated k) s
          else some s) = q
        cases q with
        | none => rfl
        | some s1 =>
          have hs1 : s1.sinks = s.sinks := by
            split at hq
            · rw [Option.bind_eq_some_iff] at hq
              obtain ⟨f, _, h2⟩ := hq
              exact hwt rfl h2
            · cases hq; rfl
          simp only
          generalize hp : (match getGroup group s1 with
            | some g => some (g, s1)
            | none =>
              (getFallbackGroup s1).bind fun f =>
                (warnThrough f (fun k => .unknownGroup k group n (s1.grp f).name) s1).map fun s => (f, s)) = p
          cases p with
          | none => rfl
          | some gs =>
            obtain ⟨g, s2⟩ := gs
            have hs2 : s2.sinks = s.sinks := by
              split at hp
              · cases hp; exact hs1
              · rw [Option.bind_eq_some_iff] at hp
                obtain ⟨f, _, h2⟩ := hp
                rw [Option.map_eq_some_iff] at h2
                obtain ⟨s3, h3, h4⟩ := h2
                cases h4
                exact hwt hs1 h3
            simp only [h1 s2 g _ hs2]

example : let s' := after [.getLogger ['w'] ['?'] (some ['?']) none] demoL
    demoL.groups.find ['?'] = none ∧ demoL.sinks.find ['?'] = none ∧ getFallbackGroup demoL = some 0 ∧
    (s'.lgr 3) = ⟨['w'], 0, some 1, false, .info, false⟩ ∧ s'.warned = [.unknownGroup 1 ['?'] ['w'] ['r']] := by
  decide +kernel

/-! ## C42 -/

/-- **C42**: a second `configure` throws and changes nothing. -/
theorem C42_second_configure {s : Sys} (hc : s.configured = true) (fuel : Nat) (sc : Script) (res : ConfResult) :
    configure fuel sc res s = .throw s := by
  unfold configure; rw [if_pos hc]

/-- **C42**: `getLogger` before `configure` throws and changes nothing. -/
theorem C42_getLogger_before {s : Sys} (hc : s.configured = false) (n g : Text) (k : Option Text) (l : Option Level)
    (fuel : Nat) : step fuel s (.getLogger n g k l) = .throw s := by
  simp only [step, getLogger, hc]; rfl

/-- **C42**: nothing but `configure` changes whether the system is configured: every other call, whether it returns or throws, leaves it as it was. -/
theorem C42_only_configure {s s' : Sys} (h : AnyReach s) {op : Op} {fuel : Nat} {v : Val}
    (hc : step fuel s op = .ret v s' ∨ step fuel s op = .throw s') : s'.configured = s.configured := by
  have ht := step_trans (A := ⟨fun _ _ => True, fun _ _ => True, True, False⟩) h.wf (fun _ _ _ _ _ _ _ => trivial)
    (fun _ _ _ _ _ _ _ _ _ => trivial) (fun _ _ => trivial) hc
  cases ht with
  | refl => rfl
  | configured hA => exact hA.elim
  | erase k i hk hd => rfl
  | sink name => rfl
  | group name parent sink level p k hp hk hl hA => rfl
  | fallback name g hg _ => rfl
  | create name g sink level ws hd hg => rfl
  | logger i m hi ha hv => rfl
  | drop i => rfl
  | level _ g l hg h => rw [h.rest]
  | sinkOf _ g k hg hk h => rw [h.rest]
  | parentOf _ g p hg hp hA hwalk h => rw [h.rest]

/-- **C42**: after `configure` — successful or not — the system is configured. -/
theorem C42_configured {s s' : Sys} (h : Reach s) {fuel : Nat} {sc : Script} {res r : ConfResult}
    (hc : configure fuel sc res s = .ret r s') : s'.configured = true := by
  have key : ∀ ops (s s' : Sys), Reach s → s.configured = true → runOps fuel ops s = some s' → s'.configured = true := by
    intro ops
    induction ops with
    | nil => intro s s' _ h hr; cases hr; exact h
    | cons op ops ih =>
      intro s s' hre hcf hr
      unfold runOps at hr
      cases hst : step fuel s op with
      | ret v s1 => rw [hst] at hr; exact ih _ _ (.call hre trivial hst) ((C42_only_configure hre (.inl hst)).trans hcf) hr
      | throw s1 =>
        rw [hst] at hr
        exact ih _ _ (.failed hre trivial hst) ((C42_only_configure (v := .unit) hre (.inr hst)).trans hcf) hr
      | ub => rw [hst] at hr; cases hr
      | diverge => rw [hst] at hr; cases hr
  unfold configure at hc
  split at hc
  · cases hc
  · cases hr : runOps fuel sc.ops { s with configured := true } with
    | none => rw [hr] at hc; cases hc
    | some s1 =>
      have := key _ _ _ (.configuring h) rfl hr
      rw [hr] at hc
      simp only at hc
      split at hc
      · cases hc; exact this
      · split at hc
        · cases hc; exact this
        · split at hc
          · cases hc
          · cases hc; exact this

/-- histories that neither set the fallback group nor, once there is a group, create one named `*` -/
def keepsFallback (s : Sys) : Op → Prop
  | .setFallbackGroup _ => False
  | .makeGroup n _ _ _ => n = star → s.ngroups = 0
  | _ => True

/-- **C42**: the first group created (object 0) is the fallback group, until `setFallbackGroup` or the creation of a
group named `*` changes it. -/
theorem C42_first_group_is_fallback {s : Sys} (h : ReachBy keepsFallback s) :
    getFallbackGroup s = if s.ngroups = 0 then none else some 0 := by
  have hstep : ∀ (s s' : Sys) (op : Op), WF s → keepsFallback s op →
      (∃ fuel, (∃ v, step fuel s op = .ret v s') ∨ step fuel s op = .throw s') →
      getFallbackGroup s = (if s.ngroups = 0 then none else some 0) →
      getFallbackGroup s' = (if s'.ngroups = 0 then none else some 0) := by
    intro s s' op hw hok ⟨fuel, hc⟩ ih
    by_cases hmk : ∃ n p k l, op = .makeGroup n p k l
    · obtain ⟨n, p, k, l, rfl⟩ := hmk
      simp only [step, makeGroup_eq hw.gLt] at hc
      split at hc
      · rcases hc with ⟨v, hc⟩ | hc
        · cases hc
          unfold getFallbackGroup at ih ⊢
          simp only [Nat.add_one_ne_zero, if_false]
          rw [Table.find_put]
          by_cases hn0 : s.ngroups = 0
          · rw [if_pos hn0] at ih
            rw [ih]
            simp only [Option.isNone_none, if_true]
            rw [Table.find_put_self, hn0]
            split <;> rfl
          · rw [if_neg hn0] at ih
            have hns : ¬ star = n := fun he => hn0 (hok he.symm)
            rw [if_neg hns, ih]
            simp only [Option.isNone_some, Bool.false_eq_true, if_false]
            exact ih
        · cases hc
      · rcases hc with ⟨v, hc⟩ | hc <;> cases hc
        exact ih
    · by_cases hfb : ∃ n, op = .setFallbackGroup n
      · obtain ⟨n, rfl⟩ := hfb; exact hok.elim
      · have hgs : s'.groups = s.groups ∧ s'.ngroups = s.ngroups := by
          rcases hc with ⟨v, hc⟩ | hc
          · exact step_groups hw (fun n p k l he => hmk ⟨n, p, k, l, he⟩) (fun n he => hfb ⟨n, he⟩) (.inl hc)
          · exact step_groups (v := .unit) hw (fun n p k l he => hmk ⟨n, p, k, l, he⟩) (fun n he => hfb ⟨n, he⟩) (.inr hc)
        unfold getFallbackGroup at ih ⊢
        rw [hgs.1, hgs.2]; exact ih
  induction h with
  | init debug ord ho => simp [new, getFallbackGroup, Table.find]
  | call hr hok hc ih => exact hstep _ _ _ hr.wf hok ⟨_, .inl ⟨_, hc⟩⟩ ih
  | failed hr hok hc ih => exact hstep _ _ _ hr.wf hok ⟨_, .inr hc⟩ ih
  | configuring _ ih => exact ih

/-- **C42**: `setFallbackGroup(n)` makes the group named `n` the fallback group, and is refused if there is none. -/
theorem C42_setFallbackGroup (s : Sys) (n : Text) (fuel : Nat) :
    match s.groups.find n with
    | some g => ∃ s', step fuel s (.setFallbackGroup n) = .ret (.bool true) s' ∧ getFallbackGroup s' = some g ∧
        (∀ k, k ≠ star → s'.groups.find k = s.groups.find k) ∧ s' = { s with groups := s'.groups }
    | none => step fuel s (.setFallbackGroup n) = .ret (.bool false) s := by
  cases h : s.groups.find n with
  | none => simp only [step, setFallbackGroup, h]; rfl
  | some g =>
    refine ⟨_, by simp only [step, setFallbackGroup, h]; rfl, ?_, ?_, rfl⟩
    · exact Table.find_put_self _ _ _
    · intro k hk; exact Table.find_put_ne _ _ hk

example : (step 20 { demo with configured := false } (.getLogger ['x'] ['b'] none none)).val = none ∧
    demo.configured = true ∧ getFallbackGroup demo = some 0 ∧
    getFallbackGroup (after [.setFallbackGroup ['q']] demo) = some 4 := by decide +kernel

/-! ## C43 -/

/-- Everything is as before, except perhaps that entries of dead loggers are gone from the table of loggers. -/
def Unchanged (s s' : Sys) : Prop :=
  s' = { s with loggers := s'.loggers } ∧
  ∀ n, s'.loggers.find n = s.loggers.find n ∨ ∃ i, s.loggers.find n = some i ∧ s.alive i = false

theorem Unchanged.refl (s : Sys) : Unchanged s s := ⟨rfl, fun _ => .inl rfl⟩

/-- **C43**: a call that throws or returns false changes nothing. -/
theorem C43_refused_changes_nothing {s s' : Sys} (h : AnyReach s) {op : Op} {fuel : Nat}
    (hc : step fuel s op = .throw s' ∨ step fuel s op = .ret (.bool false) s') : Unchanged s s' := by
  have hlog : ∀ {name erases up}, ((onLogger name erases up s).map Val.bool = .throw s' ∨
      (onLogger name erases up s).map Val.bool = .ret (.bool false) s') → Unchanged s s' := by
    intro name erases up hc
    obtain ⟨b, s1, hb⟩ := onLogger_total name erases up s
    rw [hb] at hc
    rcases hc with hc | hc
    · cases hc
    · simp only [Res.map, Res.ret.injEq, Val.bool.injEq] at hc
      obtain ⟨rfl, rfl⟩ := hc
      rcases onLogger_ret hb with ⟨h1, _⟩ | ⟨_, rfl | ⟨i, h1, h2, rfl⟩⟩
      · cases h1
      · exact .refl _
      · refine ⟨rfl, fun n => ?_⟩
        simp only
        rw [Table.find_erase h.wf.lU]
        by_cases hn : n = name
        · subst hn; exact .inr ⟨i, h1, h2⟩
        · rw [if_neg hn]; exact .inl rfl
  have hof : ∀ {r : Option Sys}, ((ofOption r).map Val.bool = .throw s' ∨
      (ofOption r).map Val.bool = .ret (.bool false) s') → Unchanged s s' := by
    intro r hc
    cases r with
    | none => rcases hc with hc | hc <;> cases hc
    | some s1 =>
      rcases hc with hc | hc
      · cases hc
      · simp [ofOption, Res.map] at hc
  have href : ∀ {b : Bool}, ((Res.ret b s).map Val.bool = .throw s' ∨
      (Res.ret b s).map Val.bool = .ret (.bool false) s') → Unchanged s s' := by
    intro b hc
    rcases hc with hc | hc <;> cases hc
    exact .refl _
  cases op with
  | makeSink n => rcases hc with hc | hc <;> cases hc
  | makeGroup n p k l =>
    simp only [step, makeGroup_eq h.wf.gLt] at hc
    split at hc
    · rcases hc with hc | hc <;> cases hc
    · rcases hc with hc | hc <;> cases hc
      exact .refl _
  | setFallbackGroup n =>
    simp only [step, setFallbackGroup] at hc
    split at hc
    · exact href hc
    · rcases hc with hc | hc <;> cases hc
  | getLogger n g k l =>
    rcases hc with hc | hc
    · rw [getLogger_throw (map_throw hc)]; exact .refl _
    · obtain ⟨_, _, h2⟩ := map_ret hc; cases h2
  | setParentOfGroup g p =>
    simp only [step, setParentOfGroup] at hc
    split at hc
    · exact href hc
    · split at hc
      · exact href hc
      · split at hc
        · rcases hc with hc | hc <;> cases hc
        · exact href hc
        · exact hof hc
  | unsetParentOfGroup g =>
    simp only [step, unsetParentOfGroup] at hc
    split at hc
    · exact href hc
    · exact hof hc
  | setSinkOfGroup g k =>
    simp only [step, setSinkOfGroup] at hc
    split at hc
    · exact href hc
    · split at hc
      · exact href hc
      · exact hof hc
  | resetSinkOfGroup g =>
    simp only [step, resetSinkOfGroup] at hc
    split at hc
    · exact href hc
    · exact hof hc
  | setLevelOfGroup g l =>
    simp only [step, setLevelOfGroup] at hc
    split at hc
    · exact href hc
    · exact hof hc
  | resetLevelOfGroup g =>
    simp only [step, resetLevelOfGroup] at hc
    split at hc
    · exact href hc
    · exact hof hc
  | setGroupOfLogger l g =>
    simp only [step, setGroupOfLogger] at hc
    split at hc
    · exact href hc
    · exact hlog hc
  | setSinkOfLogger l k =>
    simp only [step, setSinkOfLogger] at hc
    split at hc
    · exact href hc
    · exact hlog hc
  | resetSinkOfLogger l => exact hlog hc
  | setLevelOfLogger l v => exact hlog hc
  | resetLevelOfLogger l => exact hlog hc
  | onHandle i m =>
    simp only [step] at hc
    split at hc <;> rcases hc with hc | hc <;> cases hc
  | drop i => rcases hc with hc | hc <;> cases hc

example : (step 20 demoL (.setLevelOfGroup ['?'] .trace)).val = some (.bool false) ∧
    (step 20 demoL (.setSinkOfLogger ['x'] ['?'])).val = some (.bool false) ∧
    (step 20 demoL (.setParentOfGroup ['r'] ['b'])).val = some (.bool false) ∧
    (match step 20 demoL (.makeGroup ['n'] (some ['?']) none none) with | .throw _ => true | _ => false) = true ∧
    (step 20 (after [.drop 0] demoL) (.setLevelOfLogger ['x'] .error)).val = some (.bool false) := by decide +kernel

end System
end Soralog
