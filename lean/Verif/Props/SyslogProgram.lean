import Verif.Props.Whole
/-!
# C56 for whole programs: documents and calls of `makeSink`
-/
namespace Soralog

/-- the sink was made as a sink to syslog -/
def Yaml.Spec.toSyslog : Yaml.Spec → Bool
  | .syslog _ _ => true
  | _ => false

namespace Yaml

open Soralog.System

/-- what is known about syslog sinks: there is at most one, and the flag tells -/
structure OneLog (s : St) : Prop where
  one : ∀ k l, (s.specs k).toSyslog = true → (s.specs l).toSyslog = true → k = l
  flag : ∀ k, (s.specs k).toSyslog = true → s.syslogOpen = true
  beyond : ∀ k, s.sys.nsinks ≤ k → (s.specs k).toSyslog = false

/-- what is known is kept, and the flag stays set -/
def LogKept (s s' : St) : Prop :=
  OneLog s → OneLog s' ∧ (s.syslogOpen = true → s'.syslogOpen = true ∧ ∀ k, (s'.specs k).toSyslog = true → (s.specs k).toSyslog = true)

instance : Pre LogKept where
  refl _ := fun h => ⟨h, fun h' => ⟨h', fun _ hk => hk⟩⟩
  trans h1 h2 := fun h => by
    obtain ⟨a1, a2⟩ := h1 h
    obtain ⟨b1, b2⟩ := h2 a1
    exact ⟨b1, fun ho => ⟨(b2 (a2 ho).1).1, fun k hk => (a2 ho).2 k ((b2 (a2 ho).1).2 k hk)⟩⟩

theorem LogKept.same {s s' : St} (h1 : s.sys.nsinks ≤ s'.sys.nsinks) (h2 : s'.specs = s.specs) (h3 : s'.syslogOpen = s.syslogOpen) : LogKept s s' := by
  intro h
  refine ⟨⟨?_, ?_, ?_⟩, ?_⟩
  · rw [h2]; exact h.one
  · rw [h2, h3]; exact h.flag
  · rw [h2]; exact fun k hk => h.beyond k (Nat.le_trans h1 hk)
  · rw [h2, h3]; exact fun ho => ⟨ho, fun _ hk => hk⟩

/-- the test of the constructor -/
theorem openSyslog_cases (spec : Spec) (s : St) :
    (openSyslog spec s = .throw s ∧ spec.toSyslog = true ∧ s.syslogOpen = true) ∨
    (openSyslog spec s = .ok () s ∧ spec.toSyslog = false) ∨
    (openSyslog spec s = .ok () { s with syslogOpen := true } ∧ s.syslogOpen = false) := by
  unfold openSyslog
  cases spec with
  | syslog i c =>
    cases hs : s.syslogOpen with
    | true => exact .inl ⟨by simp [hs], rfl, rfl⟩
    | false => exact .inr (.inr ⟨by simp [hs], rfl⟩)
  | _ => exact .inr (.inl ⟨rfl, rfl⟩)

theorem log_created {s : St} (hs : OneLog s) {b : Bool} {spec : Spec} {name : Text}
    (h : (b = s.syslogOpen ∧ spec.toSyslog = false) ∨ (b = true ∧ s.syslogOpen = false)) :
    OneLog { s with
      syslogOpen := b, specs := upd s.specs s.sys.nsinks spec,
      sys := { s.sys with nsinks := s.sys.nsinks + 1, sinkName := upd s.sys.sinkName s.sys.nsinks name,
                          sinks := s.sys.sinks.put name s.sys.nsinks } } ∧
    (s.syslogOpen = true → b = true ∧ ∀ k, (upd s.specs s.sys.nsinks spec k).toSyslog = true → (s.specs k).toSyslog = true) := by
  have hold : ∀ k, k ≠ s.sys.nsinks → upd s.specs s.sys.nsinks spec k = s.specs k := fun k hk => upd_other _ _ hk
  rcases h with ⟨hb, hsp⟩ | ⟨hb, ho⟩
  · have hin : ∀ k, (upd s.specs s.sys.nsinks spec k).toSyslog = true → (s.specs k).toSyslog = true := by
      intro k hk
      by_cases h : k = s.sys.nsinks
      · subst h; rw [upd_same, hsp] at hk; cases hk
      · rw [hold k h] at hk; exact hk
    refine ⟨⟨fun k l hk hl => hs.one k l (hin k hk) (hin l hl), fun k hk => hb.trans (hs.flag k (hin k hk)), fun k hk => ?_⟩,
      fun ho => ⟨hb.trans ho, hin⟩⟩
    have hk : s.sys.nsinks + 1 ≤ k := hk
    show (upd s.specs s.sys.nsinks spec k).toSyslog = false
    rw [hold k (by omega)]; exact hs.beyond k (by omega)
  · have hno : ∀ k, (s.specs k).toSyslog = false := fun k => by
      cases h : (s.specs k).toSyslog with
      | false => rfl
      | true => rw [hs.flag k h] at ho; cases ho
    have hin : ∀ k, (upd s.specs s.sys.nsinks spec k).toSyslog = true → k = s.sys.nsinks := by
      intro k hk
      by_cases h : k = s.sys.nsinks
      · exact h
      · rw [hold k h, hno k] at hk; cases hk
    refine ⟨⟨fun k l hk hl => (hin k hk).trans (hin l hl).symm, fun _ _ => hb, fun k hk => ?_⟩, fun h => by rw [ho] at h; cases h⟩
    have hk : s.sys.nsinks + 1 ≤ k := hk
    show (upd s.specs s.sys.nsinks spec k).toSyslog = false
    rw [hold k (by omega)]; exact hno k

theorem log_createSink (W : World) (name : Text) (spec : Spec) : Tri LogKept Any (createSink W name spec) := by
  intro s
  unfold createSink
  rw [bind_def]
  have h1 : allocate W spec s = .throw s ∨ allocate W spec s = .ok () s := by
    unfold allocate
    cases spec.cfg with
    | none => exact .inr rfl
    | some c =>
      cases ha : W.alloc c with
      | true => exact .inr (by simp [ha])
      | false => exact .inl (by simp [ha])
  rcases h1 with h1 | h1
  · rw [h1]; exact Pre.refl (P := LogKept) s
  · rw [h1]
    simp only [bind_def]
    rcases openSyslog_cases spec s with ⟨h2, _⟩ | ⟨h2, h3⟩ | ⟨h2, h3⟩
    · rw [h2]; exact Pre.refl (P := LogKept) s
    · rw [h2]; exact ⟨fun h => log_created h (.inl ⟨rfl, h3⟩), trivial⟩
    · rw [h2]; exact ⟨fun h => log_created h (.inr ⟨rfl, h3⟩), trivial⟩

instance : Reads LogKept where
  error _ _ _ := fun s => ⟨LogKept.same (s := s) (Nat.le_refl _) rfl rfl, trivial⟩
  warning _ _ _ := fun s => ⟨LogKept.same (s := s) (Nat.le_refl _) rfl rfl, trivial⟩

instance (W : World) : Sinks W LogKept where
  sinkNoName _ := fun s => ⟨LogKept.same (s := s) (Nat.le_refl _) rfl rfl, trivial⟩
  sinkNotMap _ := fun s => ⟨LogKept.same (s := s) (Nat.le_refl _) rfl rfl, trivial⟩
  multiMissing _ _ := fun s => ⟨LogKept.same (s := s) (Nat.le_refl _) rfl rfl, trivial⟩
  create _ _ _ := log_createSink W _ _

instance (W : World) (F : Nat) : Groups W F LogKept where
  noName _ := fun s => ⟨LogKept.same (s := s) (Nat.le_refl _) rfl rfl, trivial⟩
  apply h1 h2 h3 := tri_applyGroup (fun op s y v ho h => by
    have h4 := step_sinks ho.1 ho.2 h
    exact .same (Nat.le_of_eq h4.1.symm) rfl rfl) h1 h2 h3

theorem log_applyOn (W : World) (F : Nat) (c : Configurator) : Tri LogKept Any (applyOn W F c) := by
  refine tri_applyOn (fun root => tri_parse W F root) (fun s => .same (Nat.le_refl _) rfl rfl)
    (fun p s => ⟨LogKept.same (s := s) (Nat.le_refl _) rfl rfl, trivial⟩) ?_ c
  intro level color
  unfold applyFallback
  refine Tri.bind (Q := Any) (log_createSink W _ _) fun _ _ => Tri.bind (Q := Any) ?_ fun _ _ => Tri.pure trivial
  refine call_tri fun s y v h => ?_
  have h1 := makeGroup_sinks h
  exact .same (Nat.le_of_eq h1.1.symm) rfl rfl

end Yaml

namespace Whole

open Spec Sink

variable {E : Env} {ok : State → Call → Prop}

theorem log_call {s s' : State} {owed : Nat → List Msg} {c : Call} {F : Nat} (h : History E ok s owed)
    (hs : step E F s c = .ok s' ∨ step E F s c = .throw s') : Yaml.LogKept s.st s'.st := by
  have hr : Yaml.LogKept s.st s.st := Yaml.Pre.refl s.st
  cases c with
  | configure what c =>
    simp only [step] at hs
    cases he : Yaml.configure E.W F what c s.st with
    | ub => rw [he] at hs; rcases hs with hs | hs <;> cases hs
    | diverge => rw [he] at hs; rcases hs with hs | hs <;> cases hs
    | throw y =>
      rw [he] at hs
      rcases hs with hs | hs <;> cases hs
      cases configure_throw he
      exact hr
    | ok r y =>
      rw [he] at hs
      rcases hs with hs | hs <;> cases hs
      have h1 := Yaml.configure_tri (Yaml.log_applyOn E.W F c) he
      exact Yaml.Pre.trans (P := Yaml.LogKept) (Yaml.LogKept.same (s := s.st) (s' := Yaml.started s.st) (Nat.le_refl _) rfl rfl) h1
  | makeSink name spec =>
    simp only [step] at hs
    have h1 := Yaml.log_createSink E.W name spec s.st
    cases he : Yaml.createSink E.W name spec s.st with
    | ub => rw [he] at hs; rcases hs with hs | hs <;> cases hs
    | diverge => rw [he] at hs; rcases hs with hs | hs <;> cases hs
    | throw y => rw [he] at hs h1; rcases hs with hs | hs <;> cases hs; exact h1
    | ok r y => rw [he] at hs h1; rcases hs with hs | hs <;> cases hs; exact h1.1
  | system op =>
    simp only [step] at hs
    cases he : System.step F s.st.sys op with
    | ub => rw [he] at hs; rcases hs with hs | hs <;> cases hs
    | diverge => rw [he] at hs; rcases hs with hs | hs <;> cases hs
    | throw y =>
      rw [he] at hs
      rcases hs with hs | hs <;> cases hs
      cases step_throw he
      exact hr
    | ret v y =>
      rw [he] at hs
      have hn := trans_nsinks (System.step_all (history_inv (sysOk_any ok) h).reach.wf (.inl he))
      cases hw : warnAll s.st.specs F (y.warned.drop s.st.sys.warned.length) (construct E s.st.sys.nsinks { s.st with sys := y } s.heap) with
      | none => simp only [hw] at hs; rcases hs with hs | hs <;> cases hs
      | some hp' =>
        simp only [hw] at hs
        rcases hs with hs | hs <;> cases hs
        exact .same hn rfl rfl
  | log i v format fmt =>
    have : s'.st = s.st := by
      simp only [step, logCall] at hs
      revert hs
      repeat' split
      all_goals (intro hs; rcases hs with hs | hs <;> first | (cases hs; done) | (cases hs; rfl))
    rw [this]; exact hr
  | flush k =>
    have : s'.st = s.st := by
      simp only [step] at hs
      revert hs
      split <;> (intro hs; rcases hs with hs | hs <;> first | (cases hs; done) | (cases hs; rfl))
    rw [this]; exact hr
  | rotate k =>
    have : s'.st = s.st := by
      simp only [step] at hs
      revert hs
      split <;> (intro hs; rcases hs with hs | hs <;> first | (cases hs; done) | (cases hs; rfl))
    rw [this]; exact hr

theorem history_log {s : State} {owed : Nat → List Msg} (h : History E ok s owed) : Yaml.OneLog s.st := by
  induction h with
  | new debug ord ho b =>
    exact ⟨fun k l hk => (by cases hk), fun k hk => (by cases hk), fun _ _ => rfl⟩
  | @call s0 s1 owed0 c0 F0 hr hc hok hF hst ih => exact (log_call hr hst ih).1

/-- **C56** for programs, first part: whatever documents are applied and whatever sinks the program makes, at most one of all the sinks the
program has ever had is a sink to syslog; and if there is one, a call of `makeSink` for another throws and changes nothing. -/
theorem C56_program_partial {s : State} {owed : Nat → List Msg} (h : History E ok s owed) {k : Nat}
    (hk : (s.st.specs k).toSyslog = true) :
    (∀ l, (s.st.specs l).toSyslog = true → l = k) ∧
    ∀ F name ident cfg, ∃ s', step E F s (.makeSink name (.syslog ident cfg)) = .throw s' ∧ s'.st = s.st := by
  have hi := history_log h
  refine ⟨fun l hl => hi.one l k hl hk, fun F name ident cfg => ?_⟩
  have ho := hi.flag k hk
  have : Yaml.createSink E.W name (.syslog ident cfg) s.st = .throw s.st := by
    unfold Yaml.createSink
    rw [Yaml.bind_def]
    have h1 : Yaml.allocate E.W (.syslog ident cfg) s.st = .throw s.st ∨ Yaml.allocate E.W (.syslog ident cfg) s.st = .ok () s.st := by
      show (if E.W.alloc cfg then _ else _) = _ ∨ (if E.W.alloc cfg then _ else _) = _
      split
      · exact .inr rfl
      · exact .inl rfl
    rcases h1 with h1 | h1
    · rw [h1]
    · rw [h1]
      simp only [Yaml.bind_def]
      have h2 : Yaml.openSyslog (.syslog ident cfg) s.st = .throw s.st := by
        show (if s.st.syslogOpen then _ else _) = _
        rw [if_pos ho]
      rw [h2]
  simp only [step, this]
  exact ⟨_, rfl, rfl⟩

/-- once there is a sink to syslog, no call makes another one, a `configure` neither -/
theorem C56_program_calls_partial {s s' : State} {owed : Nat → List Msg} {c : Call} {F : Nat} (h : History E ok s owed) {k : Nat}
    (hk : (s.st.specs k).toSyslog = true) (hs : step E F s c = .ok s' ∨ step E F s c = .throw s') :
    ∀ l, (s'.st.specs l).toSyslog = true → l = k := fun l hl =>
  (history_log h).one l k (((log_call h hs (history_log h)).2 ((history_log h).flag k hk)).2 l hl) hk

/-- a program makes a syslog sink, and then tries to make a second one -/
def syslogCfg : Sink.Cfg := ⟨.syslog, .info, .none, 64, 1024, 2 ^ 17, 200⟩
def syslogCall (c : Call) (s : State) : Option State :=
  match step demoEnv 20 s c with
  | .ok s' => some s'
  | .throw s' => some s'
  | _ => none
def syslogRun : Option State := syslogCall (.makeSink ['s'] (.syslog ['p'] syslogCfg)) (new demoEnv false id false)

theorem syslogRun_some : syslogRun.isSome = true := by decide +kernel
theorem syslogRun_specs : (syslogRun.get syslogRun_some).st.specs 1 = .syslog ['p'] syslogCfg := by decide +kernel

example : ∃ owed, History demoEnv (fun _ _ => True) (syslogRun.get syslogRun_some) owed ∧
    ((syslogRun.get syslogRun_some).st.specs 1).toSyslog = true := by
  have h0 : History demoEnv (fun _ _ => True) (new demoEnv false id false) fun _ => [] := .new false id (fun _ => .refl _) false
  have h1 : step demoEnv 20 (new demoEnv false id false) (.makeSink ['s'] (.syslog ['p'] syslogCfg)) = .ok (syslogRun.get syslogRun_some) ∨
      step demoEnv 20 (new demoEnv false id false) (.makeSink ['s'] (.syslog ['p'] syslogCfg)) = .throw (syslogRun.get syslogRun_some) := by
    have h := (Option.some_get syslogRun_some).symm
    generalize syslogRun.get syslogRun_some = x at h ⊢
    unfold syslogRun syslogCall at h
    split at h
    · rename_i s' he; cases h; exact .inl he
    · rename_i s' he; cases h; exact .inr he
    · cases h
  exact ⟨_, .call (c := .makeSink ['s'] (.syslog ['p'] syslogCfg)) (F := 20) h0 ⟨fun c hc => (by cases hc; exact ⟨by decide, fun h => by cases h⟩), fun lv subs h => (by cases h)⟩ trivial (by decide) h1,
    by rw [syslogRun_specs]; rfl⟩

end Whole
end Soralog
