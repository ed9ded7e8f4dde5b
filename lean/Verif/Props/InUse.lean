import Verif.Spec.InUse
import Verif.Props.SystemConc
import Verif.Proofs.Many
/-!
# C93: the sink a log call is inside of is not destroyed
-/
namespace Soralog
namespace InUse
open System (Op Sys)
open System.Conc (Done)

/-! ### the table of sinks and the history of calls -/

/-- what a step does to the history and to the table of sinks -/
inductive Change (s s' : System.Conc.St) : Prop
  | none (h1 : s'.done = s.done) (h2 : s'.sys.sinks = s.sys.sinks) (h3 : s'.sys.nsinks = s.sys.nsinks)
  | other (d : Done) (h1 : s'.done = s.done ++ [d]) (hd : ∀ n o, d ≠ .call (.makeSink n) o) (h2 : s'.sys.sinks = s.sys.sinks)
      (h3 : s'.sys.nsinks = s.sys.nsinks)
  | made (n : Text) (h1 : s'.done = s.done ++ [.call (.makeSink n) (.ret (.sink s.sys.nsinks))])
      (h2 : s'.sys.sinks = s.sys.sinks.put n s.sys.nsinks) (h3 : s'.sys.nsinks = s.sys.nsinks + 1)

theorem op_sinks {F : Nat} {s y : Sys} {op : Op} {v : System.Val} (hm : System.Conc.isMakeGroup op = false) (hk : ∀ n, op ≠ .makeSink n)
    (h : System.step F s op = .ret v y ∨ System.step F s op = .throw y) : y.sinks = s.sinks ∧ y.nsinks = s.nsinks := by
  cases hg : System.Conc.onGroups op with
  | true => have := System.Conc.onGroups_tables hg h; exact ⟨this.sinks, this.nsinks⟩
  | false =>
    by_cases hf : ∃ n, op = .setFallbackGroup n
    · obtain ⟨n, rfl⟩ := hf
      simp only [System.step, System.setFallbackGroup] at h
      revert h
      split <;> intro h <;> rcases h with h | h <;> cases h <;> exact ⟨rfl, rfl⟩
    · have := System.Conc.op_kept hg hm hk (fun n e => hf ⟨n, e⟩) h
      exact ⟨this.sinks, this.nsinks⟩

theorem moves_change {t : Tid} {s s' : System.Conc.St} (h : Many.Moves t s s') : Change s s' := by
  cases h with
  | call op fuel v sys' hi hm hc =>
    by_cases hk : ∃ n, op = .makeSink n
    · obtain ⟨n, rfl⟩ := hk
      cases hc
      exact .made n rfl rfl rfl
    · have := op_sinks hm (fun n e => hk ⟨n, e⟩) (.inl hc)
      exact .other _ rfl (fun n o e => by cases e; exact hk ⟨n, rfl⟩) this.1 this.2
  | failed op fuel sys' hi hm hc =>
    by_cases hk : ∃ n, op = .makeSink n
    · obtain ⟨n, rfl⟩ := hk
      cases hc
    · have := op_sinks (v := .unit) hm (fun n e => hk ⟨n, e⟩) (.inr hc)
      exact .other _ rfl (fun n o e => by cases e; exact hk ⟨n, rfl⟩) this.1 this.2
  | configuring hi => exact .other _ rfl (fun n o e => by cases e) rfl rfl
  | makeGroup a hi => exact .none rfl rfl rfl
  | log i r hi ha => exact .none rfl rfl rfl
  | flush i hi ha => exact .none rfl rfl rfl
  | step hi =>
    unfold System.Conc.step
    cases hpc : s.pc t <;> dsimp only <;> (repeat' split) <;>
      first
      | exact .none rfl rfl rfl
      | exact .other _ rfl (fun n o e => by cases e) rfl rfl

/-- the history tells which sink the table has -/
structure Told (s : St) : Prop where
  struct : System.Conc.Struct s.sys
  made : ∀ k, k < s.sys.sys.nsinks → ∃ n, .call (.makeSink n) (.ret (.sink k)) ∈ history s
  found : ∀ n k, StillRegistered s n k → s.sys.sys.sinks.find n = some k
  used : ∀ t i k, Uses s t i k → k < s.sys.sys.nsinks
  logs : ∀ t i, loggerOf (s.sys.pc t) = some i → i < s.sys.sys.nloggers

theorem still_append {l : List Done} {d : Done} {pre post : List Done} {n : Text} {k : Nat}
    (h : l ++ [d] = pre ++ .call (.makeSink n) (.ret (.sink k)) :: post) (hp : ∀ o, .call (.makeSink n) o ∉ post) :
    (d = .call (.makeSink n) (.ret (.sink k))) ∨
      ((∀ o, d ≠ .call (.makeSink n) o) ∧ ∃ pre post, l = pre ++ .call (.makeSink n) (.ret (.sink k)) :: post ∧ ∀ o, .call (.makeSink n) o ∉ post) := by
  rcases List.eq_nil_or_concat post with rfl | ⟨q, e, rfl⟩
  · have := List.append_inj' h rfl
    exact .inl (List.singleton_inj.1 this.2)
  · rw [List.concat_eq_append] at h hp
    have h' : l ++ [d] = (pre ++ .call (.makeSink n) (.ret (.sink k)) :: q) ++ [e] := by rw [h]; simp
    obtain ⟨h1, h2⟩ := List.append_inj' h' rfl
    cases List.singleton_inj.1 h2
    exact .inr ⟨fun o he => hp o (he ▸ List.mem_append.2 (.inr (List.mem_singleton.2 rfl))), pre, q, h1,
      fun o ho => hp o (List.mem_append.2 (.inl ho))⟩

theorem change_reg {s s' : St} (h : Told s) (hc : Change s.sys s'.sys) :
    (∀ k, k < s'.sys.sys.nsinks → ∃ n, .call (.makeSink n) (.ret (.sink k)) ∈ history s') ∧
    ∀ n k, StillRegistered s' n k → s'.sys.sys.sinks.find n = some k := by
  cases hc with
  | none h1 h2 h3 =>
    unfold StillRegistered history
    rw [h1, h2, h3]
    exact ⟨h.made, h.found⟩
  | other d h1 hd h2 h3 =>
    have hh : history s' = history s ++ [d] := by unfold history; rw [h1]; rfl
    rw [h2, h3]
    refine ⟨fun k hk => ?_, fun n k ⟨pre, post, h4, h5⟩ => ?_⟩
    · obtain ⟨n, hn⟩ := h.made k hk
      exact ⟨n, by rw [hh]; exact List.mem_append.2 (.inl hn)⟩
    · rw [hh] at h4
      rcases still_append h4 h5 with rfl | ⟨_, q⟩
      · exact absurd rfl (hd _ _)
      · exact h.found n k q
  | made m h1 h2 h3 =>
    have hh : history s' = history s ++ [.call (.makeSink m) (.ret (.sink s.sys.sys.nsinks))] := by unfold history; rw [h1]; rfl
    rw [h2, h3]
    refine ⟨fun k hk => ?_, fun n k ⟨pre, post, h4, h5⟩ => ?_⟩
    · rw [hh]
      by_cases he : k = s.sys.sys.nsinks
      · exact ⟨m, by rw [he]; exact List.mem_append.2 (.inr (List.mem_singleton.2 rfl))⟩
      · obtain ⟨n, hn⟩ := h.made k (by omega)
        exact ⟨n, List.mem_append.2 (.inl hn)⟩
    · rw [hh] at h4
      rcases still_append h4 h5 with he | ⟨hne, q⟩
      · cases he
        exact System.Table.find_put_self _ _ _
      · rw [System.Table.find_put_ne _ _ (fun e => hne _ (by rw [e]))]
        exact h.found n k q

/-- a step that calls a sink calls the sink its logger has -/
theorem entered_sink {t : Tid} {s s' : System.Conc.St} (h : Many.Moves t s s') {i k : Nat} (he : entered t s s' = some (i, k)) :
    (s.sys.lgr i).sink = some k ∧ s'.sys = s.sys := by
  unfold entered called at he
  cases h with
  | call op fuel v sys' hi hm hc => rw [hi] at he; cases he
  | failed op fuel sys' hi hm hc => rw [hi] at he; cases he
  | configuring hi => rw [hi] at he; cases he
  | makeGroup a hi => rw [hi] at he; cases he
  | log i r hi ha => rw [hi] at he; cases he
  | flush i hi ha => rw [hi] at he; cases he
  | step hi =>
    unfold System.Conc.step at he ⊢
    cases hpc : s.pc t with
    | log2 j r =>
      rw [hpc] at he
      dsimp only at he ⊢
      cases hk : (s.sys.lgr j).sink with
      | none => rw [hk] at he; simp [loggerOf, sinkOf] at he
      | some x =>
        rw [hk] at he
        simp [loggerOf, sinkOf] at he
        obtain ⟨rfl, rfl⟩ := he
        exact ⟨hk, rfl⟩
    | log4 j =>
      rw [hpc] at he
      dsimp only at he ⊢
      cases hk : (s.sys.lgr j).sink with
      | none => rw [hk] at he; simp [loggerOf, sinkOf] at he
      | some x =>
        rw [hk] at he
        simp [loggerOf, sinkOf] at he
        obtain ⟨rfl, rfl⟩ := he
        exact ⟨hk, rfl⟩
    | idle => exact absurd hpc hi
    | log1 j r => rw [hpc] at he; simp [loggerOf, System.Conc.St.goto] at he
    | log3 j => rw [hpc] at he; simp [loggerOf, System.Conc.St.goto] at he
    | _ => rw [hpc] at he; simp [loggerOf] at he

theorem moves_nsinks {t : Tid} {s s' : System.Conc.St} (h : Many.Moves t s s') : s.sys.nsinks ≤ s'.sys.nsinks := by
  cases moves_change h with
  | none h1 h2 h3 => exact Nat.le_of_eq h3.symm
  | other d h1 hd h2 h3 => exact Nat.le_of_eq h3.symm
  | made n h1 h2 h3 => rw [h3]; exact Nat.le_succ _

theorem step_logger {t : Tid} {s : System.Conc.St} {i : Nat} (h : loggerOf ((System.Conc.step s t).pc t) = some i) : loggerOf (s.pc t) = some i := by
  unfold System.Conc.step at h
  cases hpc : s.pc t <;> rw [hpc] at h <;> dsimp only at h <;> (revert h; (repeat' split)) <;> intro h <;>
    simp_all [loggerOf, System.Conc.St.goto, System.Conc.St.finish, upd]

theorem moves_logger {t u : Tid} {s s' : System.Conc.St} (h : Many.Moves t s s') {i : Nat} (hw : System.WF s.sys)
    (hl : loggerOf (s'.pc u) = some i) : loggerOf (s.pc u) = some i ∨ i < s.sys.nloggers := by
  by_cases hu : u = t
  · subst hu
    cases h with
    | call op fuel v sys' hi hm hc => simp [System.Conc.St.finish, upd, loggerOf] at hl
    | failed op fuel sys' hi hm hc => simp [System.Conc.St.finish, upd, loggerOf] at hl
    | configuring hi => exact .inl hl
    | makeGroup a hi =>
      simp only [System.Conc.St.goto, upd, if_true] at hl
      unfold System.Conc.Args.start at hl
      revert hl
      split <;> intro hl <;> cases hl
    | log j r hi ha =>
      simp only [System.Conc.St.goto, upd, if_true] at hl
      cases hl
      exact .inr (hw.live _ ha).1
    | flush j hi ha =>
      simp only [System.Conc.St.goto, upd, if_true] at hl
      cases hl
      exact .inr (hw.live _ ha).1
    | step hi => exact .inl (step_logger hl)
  · rw [h.pc_other hu] at hl
    exact .inl hl

theorem told_reach {s : St} (h : Reach s) : Told s := by
  induction h with
  | init debug ord ho =>
    refine ⟨System.Conc.struct_reach (.init debug ord ho), fun k hk => ⟨System.star, ?_⟩, fun n k ⟨pre, post, h1, h2⟩ => ?_,
      (fun t i k hu => by cases hu), fun t i hi => by cases hi⟩
    · have : k = 0 := by simp [init, System.Conc.init, System.new] at hk; exact hk
      rw [this]; exact List.mem_cons_self
    · have : pre = [] := by
        have hl := congrArg List.length h1
        simp [history, init, System.Conc.init] at hl
        exact List.eq_nil_of_length_eq_zero (by omega)
      subst this
      simp only [List.nil_append, history, List.cons.injEq] at h1
      obtain ⟨h1, _⟩ := h1
      cases h1
      rfl
  | @next s0 s1 hr he ih =>
    cases he with
    | system t sys' hf hm =>
      have hreg := change_reg (s' := ⟨sys', upd s0.inside t (entered t s0.sys sys')⟩) ih (moves_change hm)
      refine ⟨System.Conc.struct_exec ih.struct hm.exec, hreg.1, hreg.2, fun u i k hu => ?_, fun u i hi => ?_⟩
      · by_cases h : u = t
        · subst h
          have hu : entered u s0.sys sys' = some (i, k) := by
            have h2 : upd s0.inside u (entered u s0.sys sys') u = some (i, k) := hu
            rwa [System.upd_same] at h2
          have hlog : loggerOf (s0.sys.pc u) = some i := by
            unfold entered at hu
            obtain ⟨j, hj, h2⟩ := Option.bind_eq_some_iff.1 hu
            obtain ⟨x, _, h3⟩ := Option.map_eq_some_iff.1 h2
            cases h3
            exact hj
          obtain ⟨h1, h2⟩ := entered_sink hm hu
          show k < sys'.sys.nsinks
          rw [h2]
          exact ih.struct.wf.lsLt i k (ih.logs _ i hlog) h1
        · have h2 : upd _ t (entered t _ sys') u = some (i, k) := hu
          rw [System.upd_other _ _ h] at h2
          exact Nat.lt_of_lt_of_le (ih.used u i k h2) (moves_nsinks hm)
      · rcases moves_logger hm ih.struct.wf hi with h | h
        · exact Nat.lt_of_lt_of_le (ih.logs u i h) hm.named.size
        · exact Nat.lt_of_lt_of_le h hm.named.size
    | leave t =>
      refine ⟨ih.struct, ih.made, ih.found, fun u i k hu => ?_, ih.logs⟩
      by_cases h : u = t
      · subst h
        have h2 : upd _ u none u = some (i, k) := hu
        rw [System.upd_same] at h2; cases h2
      · have h2 : upd _ t none u = some (i, k) := hu
        rw [System.upd_other _ _ h] at h2
        exact ih.used u i k h2

/-- **C93**, part: a sink inside of which a log call is was registered under some name; and as long as no other sink is registered under that
name, somebody has a pointer to it, whatever else the other threads do: its destructor does not run. -/
theorem C93_registered_partial {s : St} (h : Reach s) {t : Tid} {i k : Nat} (hu : Uses s t i k) :
    ∃ n, .call (.makeSink n) (.ret (.sink k)) ∈ history s ∧
      (StillRegistered s n k → ∀ specs handles, Kept s specs handles k) := by
  have hT := told_reach h
  obtain ⟨n, hn⟩ := hT.made k (hT.used t i k hu)
  refine ⟨n, hn, fun hs specs handles => .root (List.mem_append.2 (.inl (List.mem_append.2 (.inr ?_))))⟩
  obtain ⟨e, he, h2⟩ := List.mem_map.1 ((System.Table.mem_values hT.struct.wf.kU).2 ⟨n, hT.found n k hs⟩)
  exact List.mem_map.2 ⟨e, he, by rw [h2]⟩

/-- **C93**, part: so if no name is given to two sinks, no sink is destroyed while a log call is inside. -/
theorem C93_partial {s : St} (h : Reach s)
    (hn : ∀ pre n o post o', history s = pre ++ .call (.makeSink n) o :: post → .call (.makeSink n) o' ∉ post)
    {t : Tid} {i k : Nat} (hu : Uses s t i k) (specs : Nat → Yaml.Spec) (handles : List Lifetime.Obj) : Kept s specs handles k := by
  obtain ⟨n, h1, h2⟩ := C93_registered_partial h hu
  obtain ⟨pre, post, h3⟩ := List.append_of_mem h1
  exact h2 ⟨pre, post, h3, fun o' => hn pre n _ post o' h3⟩ specs handles

/-- **C93**, part: a sink can be lost to a log call that is inside of it only if, meanwhile, its name was given to another sink, and the logger
was given another sink or dropped by the program. -/
theorem C93_lost_only_if {s : St} (h : Reach s) {t : Tid} {i k : Nat} (hu : Uses s t i k) {specs : Nat → Yaml.Spec} {handles : List Lifetime.Obj}
    (hk : ¬ Kept s specs handles k) :
    (∃ n, .call (.makeSink n) (.ret (.sink k)) ∈ history s ∧ ¬ StillRegistered s n k) ∧
    (.logger i ∈ handles → (s.sys.sys.lgr i).sink ≠ some k) := by
  obtain ⟨n, h1, h2⟩ := C93_registered_partial h hu
  refine ⟨⟨n, h1, fun hs => hk (h2 hs specs handles)⟩, fun hi he => hk ?_⟩
  refine .member (.root (List.mem_append.2 (.inr hi))) ?_
  simp only [Lifetime.members, he, Option.map_some, Option.toList_some]
  exact List.mem_append.2 (.inl (List.mem_singleton.2 rfl))

/-! ### an execution -/

open System.Conc (Act act)

/-- what the threads do: actions of the logging system, and returning from a sink -/
inductive Do where
  | act (a : Act)
  | leave (t : Tid)

def does (s : St) : Do → Option St
  | .act a => if s.inside a.thread = none then (act s.sys a).map fun y => ⟨y, upd s.inside a.thread (entered a.thread s.sys y)⟩ else none
  | .leave t => some { s with inside := upd s.inside t none }

def runs : List Do → St → Option St
  | [], s => some s
  | a :: as, s => (does s a).bind (runs as)

theorem act_moves {s s' : System.Conc.St} {a : Act} (h : act s a = some s') : Many.Moves a.thread s s' := by
  cases a with
  | call t op =>
    simp only [act] at h
    split at h
    · rename_i hc
      split at h <;> cases h
      · exact .call _ _ _ _ _ hc.1 hc.2 ‹_›
      · exact .failed _ _ _ _ hc.1 hc.2 ‹_›
    · cases h
  | configuring t =>
    simp only [act] at h
    split at h <;> cases h
    exact .configuring _ ‹_›
  | mk t a =>
    simp only [act] at h
    split at h <;> cases h
    exact .makeGroup _ _ ‹_›
  | log t i r =>
    simp only [act] at h
    split at h <;> cases h
    rename_i hc
    exact .log _ _ _ hc.1 hc.2
  | flush t i =>
    simp only [act] at h
    split at h <;> cases h
    rename_i hc
    exact .flush _ _ hc.1 hc.2
  | step t =>
    simp only [act] at h
    split at h <;> cases h
    exact .step _ ‹_›

theorem runs_reach {as : List Do} {s s' : St} (hr : Reach s) (h : runs as s = some s') : Reach s' := by
  induction as generalizing s with
  | nil => cases h; exact hr
  | cons a as ih =>
    obtain ⟨s1, h1, h2⟩ := Option.bind_eq_some_iff.1 h
    refine ih ?_ h2
    cases a with
    | act a =>
      simp only [does] at h1
      split at h1
      · obtain ⟨y, hy, rfl⟩ := Option.map_eq_some_iff.1 h1
        exact .next hr (.system s _ y ‹_› (act_moves hy))
      · cases h1
    | leave t => cases h1; exact .next hr (.leave s t)

/-- a sink `s`, a group `r` with it, a logger `x` in the group; thread 1 logs and is inside the sink … -/
def useActs : List Do :=
  [.act (.configuring 1), .act (.call 1 (.makeSink ['s'])), .act (.mk 1 ⟨['r'], none, some ['s'], some .debug⟩), .act (.step 1), .act (.step 1), .act (.step 1),
   .act (.call 1 (.getLogger ['x'] ['r'] none none)), .act (.log 1 0 System.Conc.aDebug), .act (.step 1), .act (.step 1)]

/-- … while thread 2 makes another sink `s` and gives it to the group -/
def replaceActs : List Do := [.act (.call 2 (.makeSink ['s'])), .act (.call 2 (.setSinkOfGroup ['r'] ['s']))]

/-- … while thread 2 makes another sink `t` and gives it to the group -/
def moveActs : List Do := [.act (.call 2 (.makeSink ['t'])), .act (.call 2 (.setSinkOfGroup ['r'] ['t']))]

theorem replace_some : (runs (useActs ++ replaceActs) (init true id)).isSome = true := by decide +kernel
def replaced : St := (runs (useActs ++ replaceActs) (init true id)).get replace_some
theorem replaced_reach : Reach replaced := runs_reach (.init true id fun _ => .refl _) (Option.some_get replace_some).symm

theorem move_some : (runs (useActs ++ moveActs) (init true id)).isSome = true := by decide +kernel
def moved : St := (runs (useActs ++ moveActs) (init true id)).get move_some
theorem moved_reach : Reach moved := runs_reach (.init true id fun _ => .refl _) (Option.some_get move_some).symm

/-- **C93 is false**: thread 1 is inside `push` of the sink of its logger, which the program holds.  Thread 2 makes another sink of the same name
and gives it to the group of the logger.  Now nobody has a pointer to the first sink: it is destroyed while thread 1 is inside. -/
theorem C93_refuted : ∃ s, Reach s ∧ Uses s 1 0 1 ∧ s.sys.sys.alive 0 = true ∧
    ∀ specs : Nat → Yaml.Spec, (∀ j lv subs, specs j ≠ .multi lv subs) → ¬ Kept s specs [.logger 0] 1 := by
  refine ⟨replaced, replaced_reach, (by unfold Uses; decide +kernel), by decide +kernel, fun specs hm hk => ?_⟩
  have hnone : ∀ x y, Lifetime.Owned (Lifetime.members ⟨replaced.sys.sys, specs, false, [], false, false⟩) 
      (Lifetime.systemOwns ⟨replaced.sys.sys, specs, false, [], false, false⟩ ++ [.logger 0]) x → x = y →
      y ∈ [Lifetime.Obj.group 0, .sink 0, .sink 2, .logger 0] := by
    have hs : Lifetime.systemOwns ⟨replaced.sys.sys, specs, false, [], false, false⟩ ++ [.logger 0] ⊆
        [Lifetime.Obj.group 0, .sink 0, .sink 2, .logger 0] := by
      have : Lifetime.systemOwns ⟨replaced.sys.sys, specs, false, [], false, false⟩ =
          Lifetime.systemOwns ⟨replaced.sys.sys, fun _ => .nowhere, false, [], false, false⟩ := rfl
      rw [this]
      decide +kernel
    intro x y hx
    induction hx generalizing y with
    | root h => rintro rfl; exact hs h
    | @member a b ha hb ih =>
      rintro rfl
      have h1 := ih _ rfl
      have hg : Lifetime.members ⟨replaced.sys.sys, fun _ => .nowhere, false, [], false, false⟩ (.group 0) ⊆ [Lifetime.Obj.group 0, .sink 0, .sink 2, .logger 0] := by decide +kernel
      have hl : Lifetime.members ⟨replaced.sys.sys, fun _ => .nowhere, false, [], false, false⟩ (.logger 0) ⊆ [Lifetime.Obj.group 0, .sink 0, .sink 2, .logger 0] := by decide +kernel
      have hk : ∀ j, Lifetime.members ⟨replaced.sys.sys, specs, false, [], false, false⟩ (.sink j) = [] := by
        intro j
        have := hm j
        cases he : specs j with
        | multi lv subs => exact absurd he (this lv subs)
        | _ => simp only [Lifetime.members, he]
      simp only [List.mem_cons, List.not_mem_nil, or_false] at h1
      rcases h1 with rfl | rfl | rfl | rfl
      · exact hg hb
      · rw [hk] at hb; cases hb
      · rw [hk] at hb; cases hb
      · exact hl hb
  have := hnone _ _ hk rfl
  revert this
  decide +kernel

/-- with another name instead, the hypotheses of `C93_partial` hold, and the first sink stays although no group and no logger has it any more -/
example : Reach moved ∧ Uses moved 1 0 1 ∧ (moved.sys.sys.lgr 0).sink = some 2 ∧ (moved.sys.sys.grp 0).sink = some 2 ∧
    (history moved).length = 7 ∧ StillRegistered moved ['s'] 1 := by
  refine ⟨moved_reach, (by unfold Uses; decide +kernel), by decide +kernel, by decide +kernel, by decide +kernel, 
    (history moved).take 2, (history moved).drop 3, by decide +kernel, ?_⟩
  have h2 : (history moved).drop 3 = [.call (.makeGroup ['r'] none (some ['s']) (some .debug)) (.ret (.group 0)), 
      .call (.getLogger ['x'] ['r'] none none) (.ret (.logger 0)), .call (.makeSink ['t']) (.ret (.sink 2)),
      .call (.setSinkOfGroup ['r'] ['t']) (.ret (.bool true))] := by decide +kernel
  intro o ho
  rw [h2] at ho
  simp only [List.mem_cons, List.not_mem_nil, or_false] at ho
  rcases ho with h | h | h | h <;> cases h

/-- `Logger::flush` in the same situation -/
example : ((runs (useActs ++ replaceActs ++ [.leave 1, .act (.step 1), .act (.step 1), .leave 1, .act (.flush 1 0), .act (.step 1)]) (init true id)).map
    fun s => s.inside 1) = some (some (0, 2)) := by decide +kernel

end InUse
end Soralog
