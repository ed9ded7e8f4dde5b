import Verif.Proofs.Yaml
import Verif.Proofs.SystemReach
/-!
# What a configurator does: problems reported, calls made, sinks created
-/
namespace Soralog
namespace Yaml

open Soralog.System

/-! ### problems and flags -/

/-- the problem sets the error flag -/
def Problem.setsError : Problem → Bool
  | .groupNoName _ => true
  | .sinkNoName _ => false
  | .multiMissing _ _ => false
  | p => p.mark == 'E'

/-- the problem sets the warning flag -/
def Problem.setsWarning : Problem → Bool
  | .multiMissing _ _ => true
  | .groupNoName _ => false
  | .sinkNotMap _ => false
  | p => p.mark == 'W'

/-- problems are added, and the flags say whether there was one of that kind -/
def Emits (s s' : St) : Prop :=
  ∃ ps : List Problem, s'.errors = s.errors ++ ps ∧ s'.hasError = (s.hasError || ps.any Problem.setsError) ∧
    s'.hasWarning = (s.hasWarning || ps.any Problem.setsWarning)

theorem Problem.mark_cases (p : Problem) : p.mark = 'E' ∨ p.mark = 'W' := by
  cases p <;> first | exact .inl rfl | exact .inr rfl

theorem Problem.sets_regular (p : Problem) (h : p.odd = false) :
    p.setsError = (p.mark == 'E') ∧ p.setsWarning = (p.mark == 'W') := by
  cases p <;> first | exact ⟨rfl, rfl⟩ | cases h

theorem Emits.one {s : St} (p : Problem) : Emits s { s with
    errors := s.errors ++ [p], hasError := s.hasError || p.setsError, hasWarning := s.hasWarning || p.setsWarning } :=
  ⟨[p], rfl, by simp, by simp⟩

theorem Emits.same {s s' : St} (h1 : s'.errors = s.errors) (h2 : s'.hasError = s.hasError) (h3 : s'.hasWarning = s.hasWarning) :
    Emits s s' := ⟨[], by simp [h1], by simp [h2], by simp [h3]⟩

instance : Pre Emits where
  refl s := .same rfl rfl rfl
  trans := by
    rintro a b c ⟨ps, h1, h2, h3⟩ ⟨qs, h4, h5, h6⟩
    exact ⟨ps ++ qs, by rw [h4, h1, List.append_assoc], by rw [h5, h2, List.any_append, Bool.or_assoc],
      by rw [h6, h3, List.any_append, Bool.or_assoc]⟩

theorem emits_error (p : Problem) (h1 : p.setsError = true) (h2 : p.setsWarning = false) : Tri Emits Any (error p) := by
  intro s
  refine ⟨⟨[p], rfl, ?_, ?_⟩, trivial⟩
  · simp [h1]
  · simp [h2]

theorem emits_warning (p : Problem) (h1 : p.setsError = false) (h2 : p.setsWarning = true) : Tri Emits Any (warning p) := by
  intro s
  refine ⟨⟨[p], rfl, ?_, ?_⟩, trivial⟩
  · simp [h1]
  · simp [h2]

theorem emits_report (p : Problem) (h1 : p.setsError = false) (h2 : p.setsWarning = false) : Tri Emits Any (report p) := by
  intro s
  refine ⟨⟨[p], rfl, ?_, ?_⟩, trivial⟩
  · simp [h1]
  · simp [h2]

instance : Reads Emits where
  error p h1 h2 := emits_error p (by rw [(p.sets_regular h2).1, h1]; rfl) (by rw [(p.sets_regular h2).2, h1]; rfl)
  warning p h1 h2 := emits_warning p (by rw [(p.sets_regular h2).1, h1]; rfl) (by rw [(p.sets_regular h2).2, h1]; rfl)

/-- `createSink` reports nothing -/
theorem createSink_cases (W : World) (name : Text) (spec : Spec) (s : St) :
    createSink W name spec s = .throw s ∨
    ((∀ c, spec.cfg = some c → W.alloc c = true) ∧ ∃ b, createSink W name spec s = .ok () { s with
      syslogOpen := b, specs := upd s.specs s.sys.nsinks spec,
      sys := { s.sys with nsinks := s.sys.nsinks + 1, sinkName := upd s.sys.sinkName s.sys.nsinks name,
                          sinks := s.sys.sinks.put name s.sys.nsinks } }) := by
  unfold createSink
  have h1 : allocate W spec s = .throw s ∨ (allocate W spec s = .ok () s ∧ ∀ c, spec.cfg = some c → W.alloc c = true) := by
    unfold allocate
    cases hc : spec.cfg with
    | none => exact .inr ⟨rfl, fun c h => by cases h⟩
    | some c =>
      cases ha : W.alloc c with
      | true => exact .inr ⟨by simp [ha], fun c' h => by cases h; exact ha⟩
      | false => exact .inl (by simp [ha])
  have h2 : openSyslog spec s = .throw s ∨ ∃ b, openSyslog spec s = .ok () { s with syslogOpen := b } := by
    unfold openSyslog
    cases spec with
    | syslog i c =>
      cases hs : s.syslogOpen with
      | true => exact .inl (by simp [hs])
      | false => exact .inr ⟨true, by simp [hs]⟩
    | _ => exact .inr ⟨s.syslogOpen, rfl⟩
  rw [bind_def]
  rcases h1 with h1 | ⟨h1, ha⟩
  · rw [h1]; exact .inl rfl
  · rw [h1]
    simp only [bind_def]
    rcases h2 with h2 | ⟨b, h2⟩
    · rw [h2]; exact .inl rfl
    · rw [h2]; exact .inr ⟨ha, b, rfl⟩

/-- `createSink` as a triple -/
theorem tri_createSink [Pre P] {W : World} {name : Text} {spec : Spec}
    (h : ∀ s b, (∀ c, spec.cfg = some c → W.alloc c = true) → P s { s with
      syslogOpen := b, specs := upd s.specs s.sys.nsinks spec,
      sys := { s.sys with nsinks := s.sys.nsinks + 1, sinkName := upd s.sys.sinkName s.sys.nsinks name,
                          sinks := s.sys.sinks.put name s.sys.nsinks } }) : Tri P Any (createSink W name spec) := by
  intro s
  rcases createSink_cases W name spec s with h1 | ⟨ha, b, h1⟩
  · rw [h1]; exact Pre.refl s
  · rw [h1]; exact ⟨h s b ha, trivial⟩

instance (W : World) : Sinks W Emits where
  sinkNoName i := emits_report _ rfl rfl
  sinkNotMap i := emits_report _ rfl rfl
  multiMissing k n := emits_warning _ rfl rfl
  create _ _ _ := tri_createSink fun s b _ => .same rfl rfl rfl

/-! ### calls -/

/-- the calls a YAML configurator makes -/
def yamlOp (s : Sys) : Op → Prop
  | .makeSink n => n ≠ star
  | .makeGroup n p k l => n ≠ star ∧ s.groups.find n = none ∧ (p.isSome ∨ k.isSome) ∧ p ≠ some star
  | .setParentOfGroup n p => n ≠ star ∧ p ≠ star
  | .setSinkOfGroup n _ => n ≠ star
  | .setLevelOfGroup n _ => n ≠ star
  | .setFallbackGroup n => n ≠ star
  | _ => False

theorem call_tri [Pre P] {F : Nat} {op : Op} (h : ∀ s y v, step F s.sys op = .ret v y ∨ step F s.sys op = .throw y → P s { s with sys := y }) :
    Tri P Any (call F op) := by
  intro s
  unfold call
  cases hs : step F s.sys op with
  | ret v y => exact ⟨h s y v (.inl hs), trivial⟩
  | throw y => exact h s y .unit (.inr hs)
  | ub => trivial
  | diverge => trivial

/-- the calls made for groups -/
def groupOp (s : Sys) (op : Op) : Prop := yamlOp s op ∧ ∀ n, op ≠ .makeSink n

theorem applyGroup_eq (F : Nat) (g : GroupNode) (parent : Option Text) (s : St) :
    applyGroup F g parent s = match getGroup g.name s.sys with
      | some _ => (updateGroup F g parent >>= fun _ =>
          (if g.isFallback then call F (.setFallbackGroup g.name) else pure () : M Unit)) s
      | none => (call F (.makeGroup g.name parent g.sink g.level) >>= fun _ =>
          (if g.isFallback then call F (.setFallbackGroup g.name) else pure () : M Unit)) s := by
  unfold applyGroup
  rw [bind_def]
  simp only [lookGroup]
  cases getGroup g.name s.sys <;> rfl

theorem tri_applyGroup [Pre P] {W : World} {F : Nat} {g : GroupNode} {entries : List (Nat × Nat)} {parent : Option Text}
    (hc : ∀ op s y v, groupOp s.sys op → step F s.sys op = .ret v y ∨ step F s.sys op = .throw y → P s { s with sys := y })
    (hn : g.name ≠ star) (hg : GroupRead W entries parent g) (hp : parent ≠ some star) : Tri P Any (applyGroup F g parent) := by
  have hcall : ∀ op, (∀ s, groupOp s op) → Tri P Any (call F op) := fun op ho =>
    call_tri fun s y v h => hc op s y v (ho _) h
  have hfb : Tri P Any (if g.isFallback then call F (.setFallbackGroup g.name) else pure () : M Unit) := by
    split
    · exact hcall _ fun s => ⟨hn, fun _ h => nomatch h⟩
    · exact Tri.pure trivial
  intro s
  rw [applyGroup_eq]
  cases hf : getGroup g.name s.sys with
  | some old =>
    have h3 : Tri P Any (updateGroup F g parent) := by
      unfold updateGroup
      refine Tri.bind (Q := Any) ?_ fun _ _ => Tri.bind (Q := Any) ?_ fun _ _ => ?_
      · split
        · exact hcall _ fun s => ⟨⟨hn, fun h => hp (by rw [h])⟩, fun _ h => nomatch h⟩
        · exact Tri.pure trivial
      · split
        · exact hcall _ fun s => ⟨hn, fun _ h => nomatch h⟩
        · exact Tri.pure trivial
      · split
        · exact hcall _ fun s => ⟨hn, fun _ h => nomatch h⟩
        · exact Tri.pure trivial
    exact Tri.bind h3 (fun _ _ => hfb) s
  | none =>
    have ho : groupOp s.sys (.makeGroup g.name parent g.sink g.level) := by
      refine ⟨⟨hn, hf, ?_, hp⟩, fun _ h => nomatch h⟩
      rcases hg.sink with ⟨_, h⟩ | ⟨t, _, h⟩
      · cases hpar : parent with
        | some _ => exact .inl rfl
        | none => rw [h, hpar]; exact .inr rfl
      · rw [h]; exact .inr rfl
    simp only
    rw [bind_def]
    unfold call
    cases hs : step F s.sys (.makeGroup g.name parent g.sink g.level) with
    | ret v y =>
      have h1 := hc _ s y v ho (.inl hs)
      have h2 := hfb { s with sys := y }
      simp only
      unfold call at h2
      split
      · rename_i he; rw [he] at h2; exact ⟨Pre.trans h1 h2.1, h2.2⟩
      · rename_i he; rw [he] at h2; exact Pre.trans h1 h2
      · trivial
      · trivial
    | throw y => exact hc _ s y .unit ho (.inr hs)
    | ub => trivial
    | diverge => trivial

instance (W : World) (F : Nat) : Groups W F Emits where
  noName t := emits_error _ rfl rfl
  apply h1 h2 h3 := tri_applyGroup (fun _ _ _ _ _ _ => .same rfl rfl rfl) h1 h2 h3

/-- the system has been changed by calls that satisfy `ok` only -/
inductive Calls (ok : Sys → Op → Prop) : Sys → Sys → Prop
  | refl (s : Sys) : Calls ok s s
  | ret {a b c : Sys} {F : Nat} {op : Op} {v : Val} (h : Calls ok a b) (hok : ok b op) (hc : step F b op = .ret v c) : Calls ok a c
  | throw {a b c : Sys} {F : Nat} {op : Op} (h : Calls ok a b) (hok : ok b op) (hc : step F b op = .throw c) : Calls ok a c

theorem Calls.trans {ok : Sys → Op → Prop} {a b c : Sys} (h1 : Calls ok a b) (h2 : Calls ok b c) : Calls ok a c := by
  induction h2 with
  | refl => exact h1
  | ret _ hok hc ih => exact .ret ih hok hc
  | throw _ hok hc ih => exact .throw ih hok hc

theorem Calls.reach {ok ok' : Sys → Op → Prop} {a b : Sys} (h : Calls ok a b) (hr : ReachBy ok' a) (himp : ∀ s op, ok s op → ok' s op) :
    ReachBy ok' b := by
  induction h with
  | refl => exact hr
  | ret _ hok hc ih => exact .call ih (himp _ _ hok) hc
  | throw _ hok hc ih => exact .failed ih (himp _ _ hok) hc

def CallsOnly (s s' : St) : Prop := Calls yamlOp s.sys s'.sys

instance : Pre CallsOnly where
  refl s := .refl _
  trans := Calls.trans

instance : Reads CallsOnly where
  error _ _ _ := fun _ => ⟨.refl _, trivial⟩
  warning _ _ _ := fun _ => ⟨.refl _, trivial⟩

instance (W : World) : Sinks W CallsOnly where
  sinkNoName i := fun _ => ⟨.refl _, trivial⟩
  sinkNotMap i := fun _ => ⟨.refl _, trivial⟩
  multiMissing k n := fun _ => ⟨.refl _, trivial⟩
  create {name _ _} hn _ _ := tri_createSink fun s b _ => .ret (F := 0) (op := .makeSink name) (.refl _) hn rfl

instance (W : World) (F : Nat) : Groups W F CallsOnly where
  noName t := fun _ => ⟨.refl _, trivial⟩
  apply h1 h2 h3 := tri_applyGroup
    (fun op s y v ho h => h.elim (fun h => .ret (.refl _) ho.1 h) fun h => .throw (.refl _) ho.1 h) h1 h2 h3

/-! ### sinks created -/

/-- Sinks stay as they are, and new ones come from a node of the document with memory allocated for them. -/
def NewSinks (W : World) (s s' : St) : Prop :=
  s.sys.nsinks ≤ s'.sys.nsinks ∧ (∀ k, k < s.sys.nsinks → s'.specs k = s.specs k) ∧
  ∀ k, s.sys.nsinks ≤ k → k < s'.sys.nsinks →
    ∃ entries, FromNode W entries (s'.specs k) ∧ ∀ c, (s'.specs k).cfg = some c → W.alloc c = true

instance (W : World) : Pre (NewSinks W) where
  refl s := ⟨Nat.le_refl _, fun _ _ => rfl, fun k h1 h2 => absurd h2 (Nat.not_lt.2 h1)⟩
  trans := by
    rintro a b c ⟨h1, h2, h3⟩ ⟨h4, h5, h6⟩
    refine ⟨Nat.le_trans h1 h4, fun k hk => by rw [h5 k (Nat.lt_of_lt_of_le hk h1), h2 k hk], fun k hk1 hk2 => ?_⟩
    by_cases hb : k < b.sys.nsinks
    · obtain ⟨e, he⟩ := h3 k hk1 hb
      exact ⟨e, by rw [h5 k hb]; exact he⟩
    · exact h6 k (Nat.not_lt.1 hb) hk2

instance (W : World) : Reads (NewSinks W) where
  error _ _ _ := fun s => ⟨Pre.refl (P := NewSinks W) s, trivial⟩
  warning _ _ _ := fun s => ⟨Pre.refl (P := NewSinks W) s, trivial⟩

instance (W : World) : Sinks W (NewSinks W) where
  sinkNoName i := fun s => ⟨Pre.refl (P := NewSinks W) s, trivial⟩
  sinkNotMap i := fun s => ⟨Pre.refl (P := NewSinks W) s, trivial⟩
  multiMissing k n := fun s => ⟨Pre.refl (P := NewSinks W) s, trivial⟩
  create {name entries spec} _ _ hs := tri_createSink fun s b ha => by
    refine ⟨Nat.le_succ _, fun k hk => upd_other _ _ (Nat.ne_of_lt hk), fun k h1 h2 => ?_⟩
    have : k = s.sys.nsinks := Nat.le_antisymm (Nat.lt_succ_iff.1 h2) h1
    subst this
    simp only [upd_same]
    exact ⟨entries, hs, ha⟩

theorem propagate_sinks {F : Nat} {stop : Group → Bool} {f : Change} {up : (Nat → Group) → Logger → Logger} {g : Nat} {s y : Sys}
    (h : propagate F stop f up g s = some y) : y.nsinks = s.nsinks ∧ y.sinks = s.sinks ∧ y.sinkName = s.sinkName := by
  unfold propagate at h
  split at h
  · cases h
  · cases h; exact ⟨rfl, rfl, rfl⟩

/-- the group calls leave the sinks alone -/
theorem step_sinks {F : Nat} {s y : Sys} {op : Op} {v : Val} (hy : yamlOp s op) (hop : ∀ n, op ≠ .makeSink n)
    (h : step F s op = .ret v y ∨ step F s op = .throw y) : y.nsinks = s.nsinks ∧ y.sinks = s.sinks ∧ y.sinkName = s.sinkName := by
  have hof : ∀ {o : Option Sys}, (∀ y, o = some y → y.nsinks = s.nsinks ∧ y.sinks = s.sinks ∧ y.sinkName = s.sinkName) →
      (ofOption o).map Val.bool = .ret v y ∨ (ofOption o).map Val.bool = .throw y →
      y.nsinks = s.nsinks ∧ y.sinks = s.sinks ∧ y.sinkName = s.sinkName := by
    intro o ho h
    cases o with
    | none => rcases h with h | h <;> cases h
    | some z => rcases h with h | h <;> cases h; exact ho _ rfl
  have href : ∀ {b : Bool}, (Res.ret b s).map Val.bool = .ret v y ∨ (Res.ret b s).map Val.bool = .throw y →
      y.nsinks = s.nsinks ∧ y.sinks = s.sinks ∧ y.sinkName = s.sinkName := by
    intro b h
    rcases h with h | h <;> cases h; exact ⟨rfl, rfl, rfl⟩
  cases op with
  | makeSink n => exact absurd rfl (hop n)
  | makeGroup n p k l =>
    simp only [step, makeGroup] at h
    split at h
    · rcases h with h | h <;> cases h; exact ⟨rfl, rfl, rfl⟩
    · split at h
      · rcases h with h | h <;> cases h; exact ⟨rfl, rfl, rfl⟩
      · split at h
        · rcases h with h | h <;> cases h; exact ⟨rfl, rfl, rfl⟩
        · rcases h with h | h <;> cases h; exact ⟨rfl, rfl, rfl⟩
  | setFallbackGroup n =>
    simp only [step, setFallbackGroup] at h
    split at h
    · exact href h
    · rcases h with h | h <;> cases h; exact ⟨rfl, rfl, rfl⟩
  | setParentOfGroup g p =>
    simp only [step, setParentOfGroup] at h
    repeat' split at h
    all_goals first | exact href h | (rcases h with h | h <;> cases h) | (refine hof (fun y hy => ?_) h; unfold setParentOfGroupPtr at hy; have h9 := propagate_sinks hy; exact h9)
  | setSinkOfGroup g p =>
    simp only [step, setSinkOfGroup] at h
    repeat' split at h
    all_goals first | exact href h | (refine hof (fun y hy => ?_) h; unfold setSinkOfGroupPtr at hy; have h9 := propagate_sinks hy; exact h9)
  | setLevelOfGroup g p =>
    simp only [step, setLevelOfGroup] at h
    repeat' split at h
    all_goals first | exact href h | (refine hof (fun y hy => ?_) h; unfold setLevelOfGroupPtr at hy; have h9 := propagate_sinks hy; exact h9)
  | _ => exact hy.elim

instance (W : World) (F : Nat) : Groups W F (NewSinks W) where
  noName t := fun s => ⟨Pre.refl (P := NewSinks W) s, trivial⟩
  apply h1 h2 h3 := tri_applyGroup
    (fun op s y v ho h => by
      have h4 := step_sinks ho.1 ho.2 h
      refine ⟨Nat.le_of_eq h4.1.symm, fun _ _ => rfl, fun k hk1 hk2 => ?_⟩
      have hk2 : k < y.nsinks := hk2
      omega) h1 h2 h3

end Yaml
end Soralog
